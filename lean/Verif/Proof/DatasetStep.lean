import Verif.Proof.DatasetBuild
import Verif.Proof.DatasetBisim

/-!
# What calls do to memory
-/

namespace Xcore.Dataset

theorem refers_lt {h : Heap} (wf : WF h) {a b : Addr} (r : Refers h a b) : a < h.length ∧ b < h.length := by
  cases r with
  | ptr ho hk => exact ⟨lt_of_getElem? ho, wf.valid _ _ _ _ ho hk⟩
  | slice ho hk =>
    obtain ⟨l, hl⟩ := wf.valid _ _ _ _ ho hk
    exact ⟨lt_of_getElem? ho, lt_of_getElem? hl⟩
  | wrapped ho => have := (wf.wrapper _ _ ho).1; have := lt_of_getElem? ho; exact ⟨this, by omega⟩
  | elem ho hk =>
    refine ⟨by rcases ho with ho | ho <;> exact lt_of_getElem? ho, ?_⟩
    rcases wf.elem _ _ _ ho hk with ⟨m, hm⟩ | ⟨i, hi⟩
    · exact lt_of_getElem? hm
    · exact lt_of_getElem? hi

theorem reach_lt {h : Heap} (wf : WF h) {a b : Addr} (r : Reach h a b) (ha : a < h.length) : b < h.length := by
  induction r with
  | refl => exact ha
  | step h1 _ ih => exact ih (refers_lt wf h1).2

theorem Reach.trans {h : Heap} {a b c : Addr} (r : Reach h a b) (r' : Reach h b c) : Reach h a c := by
  induction r with
  | refl => exact r'
  | step h1 _ ih => exact .step h1 (ih r')

theorem Refers.reach {h : Heap} {a b : Addr} (r : Refers h a b) : Reach h a b := .step r .refl

theorem isDataset_lt {h : Heap} {a : Addr} (hd : IsDataset h a) : a < h.length := by
  rcases hd with ⟨m, hm⟩ | ⟨i, hi⟩
  · exact lt_of_getElem? hm
  · exact lt_of_getElem? hi

theorem isCollection_lt {h : Heap} {a : Addr} {l : List (Option Addr)} (hd : IsCollection h a l) : a < h.length := by
  rcases hd with hm | hm <;> exact lt_of_getElem? hm

/-! ## Clone -/

theorem built_wrapper {P : Addr → Prop} {h : Heap} (wf : WF h) {c : Addr} (hc : IsDataset h c) {L : Nat} (hr : L ≤ c) :
    WF (h ++ [.dsTS (some c)]) ∧ ∀ b, Refers (h ++ [Obj.dsTS (some c)]) h.length b → L ≤ b ∨ P b := by
  have hg : (h ++ [Obj.dsTS (some c)])[h.length]? = some (.dsTS (some c)) := by simp
  refine ⟨wf_append wf ⟨isDataset_lt hc, hc⟩, ?_⟩
  intro b r
  cases r with
  | ptr h1 hk => rw [hg] at h1; cases h1
  | slice h1 hk => rw [hg] at h1; cases h1
  | wrapped h1 => rw [hg] at h1; cases h1; exact Or.inl hr
  | elem h1 hk => unfold IsCollection at h1; rw [hg] at h1; rcases h1 with h1 | h1 <;> cases h1

/-- Cloning adds objects that refer to added objects or objects reachable from the original. -/
theorem clone_built {P : Addr → Prop} {n : Nat} {h h' : Heap} {v w : Val} (wf : WF h) (hv : Valid h v)
    (hP : ∀ a, P a → a < h.length) (hcl : ∀ a b, P a → Refers h a b → P b) (hvP : ∀ a, RefV v a → P a)
    (e : cloneVal n h v = .ok (h', w)) : Built P h h' ∧ ∀ b, RefV w b → h.length ≤ b ∨ P b := by
  induction n generalizing h h' v w with
  | zero => cases e
  | succ n ih =>
    have grow : ∀ {h1 : Heap}, Grows h h1 → (∀ a, P a → a < h1.length) ∧ (∀ a b, P a → Refers h1 a b → P b) := by
      intro h1 g
      refine ⟨fun a ha => Nat.lt_of_lt_of_le (hP a ha) g.length, fun a b ha r => hcl a b ha ((g.refers (hP a ha)).1 r)⟩
    have new : ∀ {h1 : Heap}, Grows h h1 → ∀ b, RefV (.ptr h1.length) b → h.length ≤ b ∨ P b := by
      rintro h1 g b (hb | ⟨_, hb⟩)
      · cases hb; exact Or.inl g.length
      · cases hb
    cases v with
    | ptr a =>
      have hPa : P a := hvP a (Or.inl rfl)
      have helems : ∀ (l : List (Option Addr)) (h1 h2 : Heap) (ws : List Val), Built P h h1 → (∀ b : Addr, some b ∈ l → IsDataset h1 b ∧ P b) →
          mapRes (fun h (e : Option Addr) => match e with
            | none => .panic
            | some b => cloneVal n h (.ptr b)) h1 l = .ok (h2, ws) →
          Grows h1 h2 ∧ Built P h h2 ∧ ∀ b : Addr, some b ∈ (ws.map fun w => match w with | .ptr c => some c | _ => none) → IsDataset h2 b ∧ h.length ≤ b := by
        intro l
        induction l with
        | nil => intro h1 h2 ws wf _ e; cases e; exact ⟨.refl _, wf, by simp⟩
        | cons d l ihl =>
          intro h1 h2 ws bu hl e
          obtain ⟨h3, b, bs, e1, e2, rfl⟩ := mapRes_cons_ok.1 e
          cases d with
          | none => cases e1
          | some d =>
            obtain ⟨hd, hPd⟩ := hl d (by simp)
            have hlt : d < h1.length := isDataset_lt hd
            obtain ⟨g1, g2⟩ := grow bu.grows
            obtain ⟨b1, b2⟩ := ih (v := .ptr d) bu.wf hlt g1 g2 (by rintro x (hx | ⟨_, hx⟩) <;> cases hx; exact hPd) e1
            obtain ⟨wf1, gr1, c1⟩ := clone_copy (v := .ptr d) bu.wf hlt e1
            obtain ⟨b', rfl, hb2, hb'⟩ := c1.isDataset (gr1.ext.isDataset hd)
            obtain ⟨c0, c1, c2⟩ := ihl h3 h2 bs (bu.trans b1) (fun b hb => ⟨gr1.ext.isDataset (hl b (by simp [hb])).1, (hl b (by simp [hb])).2⟩) e2
            refine ⟨gr1.trans c0, c1, ?_⟩
            intro b hb
            simp only [List.map_cons] at hb
            rcases List.mem_cons.1 hb with hb | hb
            · cases hb
              refine ⟨c0.ext.isDataset hb', ?_⟩
              have := bu.grows.length
              omega
            · exact c2 b hb
      simp only [cloneVal] at e
      cases ho : h[a]? with
      | none => have : a < h.length := hv; rw [List.getElem?_eq_getElem this] at ho; cases ho
      | some o =>
        rw [ho] at e
        cases o with
        | ds m =>
          simp only at e
          obtain ⟨⟨h1, m'⟩, e1, e2⟩ := map_ok.1 e
          cases e2
          have hent : ∀ (m : AMap Val) (h1 h2 : Heap) (m' : AMap Val), Built P h h1 → (∀ k v, (k, v) ∈ m → Valid h1 v ∧ ∀ b, RefV v b → P b) →
              mapRes (fun h (p : Str × Val) => (cloneVal n h p.2).map fun r => (r.1, (p.1, r.2))) h1 m = .ok (h2, m') →
              Grows h1 h2 ∧ Built P h h2 ∧ m'.map Prod.fst = m.map Prod.fst ∧
              ∀ k v, (k, v) ∈ m' → Valid h2 v ∧ ∀ b, RefV v b → h.length ≤ b ∨ P b := by
            intro m
            induction m with
            | nil => intro h1 h2 m' wf _ e; cases e; exact ⟨.refl _, wf, rfl, by simp⟩
            | cons p m ihm =>
              intro h1 h2 m' bu hm e
              obtain ⟨h3, b, bs, e1, e2, rfl⟩ := mapRes_cons_ok.1 e
              obtain ⟨⟨h1', w⟩, e3, e4⟩ := map_ok.1 e1
              obtain ⟨rfl, rfl⟩ := Prod.mk.inj e4
              obtain ⟨hvp, hrp⟩ := hm p.1 p.2 (by simp)
              obtain ⟨g1, g2⟩ := grow bu.grows
              obtain ⟨b1, b2⟩ := ih bu.wf hvp g1 g2 hrp e3
              obtain ⟨wf1, gr1, c1⟩ := clone_copy bu.wf hvp e3
              obtain ⟨d0, d1, d2, d3⟩ := ihm _ h2 bs (bu.trans b1) (fun k v hb => ⟨((hm k v (by simp [hb])).1).grow gr1.ext, (hm k v (by simp [hb])).2⟩) e2
              refine ⟨gr1.trans d0, d1, by simp [d2], ?_⟩
              intro k v hk
              rcases List.mem_cons.1 hk with hk | hk
              · cases hk
                refine ⟨(c1.valid (hvp.grow gr1.ext)).grow d0.ext, fun b hb => ?_⟩
                rcases b2 b hb with h' | h'
                · have := bu.grows.length; left; omega
                · exact Or.inr h'
              · exact d3 k v hk
          obtain ⟨_, c1, c2, c3⟩ := hent m h h1 m' (.refl wf) (fun k v hk => ⟨wf.valid a m k v ho hk, fun b hb => hcl a b hPa (by
            rcases hb with rfl | ⟨sk, rfl⟩
            · exact .ptr ho hk
            · exact .slice ho hk)⟩) e1
          have hnod : (m'.map Prod.fst).Nodup := by rw [c2]; exact wf.nodup a m ho
          have hfold : m'.foldl (fun c p => AMap.set c p.1 p.2) [] = m' := foldl_set m' [] (by simpa using hnod)
          simp only [hfold]
          obtain ⟨g1, g2⟩ := built_ds (P := P) c1.wf hnod (fun k v hk => (c3 k v hk).1) (fun k v b hk => (c3 k v hk).2 b)
          exact ⟨c1.snoc g1 g2, new c1.grows⟩
        | dsTS i =>
          cases i with
          | none => cases e
          | some b =>
            simp only at e
            obtain ⟨⟨h1, w1⟩, e1, e2⟩ := bind_ok'.1 e
            have hb := wf.wrapper a b ho
            have hlt : b < h.length := isDataset_lt hb.2
            obtain ⟨b1, b2⟩ := ih (v := .ptr b) wf hlt hP hcl (by rintro x (hx | ⟨_, hx⟩) <;> cases hx; exact hcl a b hPa (.wrapped ho)) e1
            obtain ⟨wf1, g1, c1⟩ := clone_copy (v := .ptr b) wf hlt e1
            obtain ⟨c, rfl, hc1, hc⟩ := c1.isDataset (g1.ext.isDataset hb.2)
            cases e2
            obtain ⟨g1, g2⟩ := built_wrapper (P := P) b1.wf hc hc1
            exact ⟨b1.snoc g1 g2, new b1.grows⟩
        | col l =>
          simp only at e
          obtain ⟨⟨h1, ws⟩, e1, e2⟩ := map_ok.1 e
          cases e2
          have hE : ∀ b : Addr, some b ∈ l → IsDataset h b ∧ P b := fun b hb =>
            ⟨wf.elem a l b (Or.inl ho) hb, hcl a b hPa (.elem (Or.inl ho) hb)⟩
          obtain ⟨_, c1, c2⟩ := helems l h h1 ws (.refl wf) hE e1
          simp only
          generalize (ws.map fun w => match w with | .ptr c => some c | _ => none) = l' at c2 ⊢
          obtain ⟨g1, g2⟩ := built_col (P := P) c1.wf (fun b hb => (c2 b hb).1) (fun b hb => (c2 b hb).2) (Or.inl rfl)
          exact ⟨c1.snoc g1 g2, new c1.grows⟩
        | colTS l =>
          simp only at e
          obtain ⟨⟨h1, ws⟩, e1, e2⟩ := map_ok.1 e
          cases e2
          have hE : ∀ b : Addr, some b ∈ l → IsDataset h b ∧ P b := fun b hb =>
            ⟨wf.elem a l b (Or.inr ho) hb, hcl a b hPa (.elem (Or.inr ho) hb)⟩
          obtain ⟨_, c1, c2⟩ := helems l h h1 ws (.refl wf) hE e1
          simp only
          generalize (ws.map fun w => match w with | .ptr c => some c | _ => none) = l' at c2 ⊢
          obtain ⟨g1, g2⟩ := built_col (P := P) c1.wf (fun b hb => (c2 b hb).1) (fun b hb => (c2 b hb).2) (Or.inr rfl)
          exact ⟨c1.snoc g1 g2, new c1.grows⟩
        | lang l => cases e; exact ⟨.refl wf, fun b hb => Or.inr (hvP b hb)⟩
        | slice l => cases e; exact ⟨.refl wf, fun b hb => Or.inr (hvP b hb)⟩
    | _ => cases e; exact ⟨.refl wf, fun b hb => Or.inr (hvP b hb)⟩

/-! ## Calls -/

/-- What a call by a program that can get at the objects `M` does: it keeps kinds, changes only datasets and collections in `M`, and what
`M` and the new objects refer to is in `M` or new. -/
structure StepOK (M : Addr → Prop) (h h' : Heap) : Prop where
  wf : WF h'
  ext : Ext' h h'
  changed : ∀ b, b < h.length → h'[b]? ≠ h[b]? → M b ∧ (IsDataset h b ∨ ∃ l, IsCollection h b l)
  refs : ∀ a b, (M a ∨ h.length ≤ a) → Refers h' a b → M b ∨ h.length ≤ b

theorem Built.stepOK {M : Addr → Prop} {h h' : Heap} (b : Built M h h') (hM : ∀ a, M a → a < h.length) (hcl : ∀ a b, M a → Refers h a b → M b) :
    StepOK M h h' := by
  refine ⟨b.wf, b.grows.ext, fun c hc hne => absurd (b.grows.get_lt hc) hne, ?_⟩
  rintro a c (ha | ha) r
  · exact Or.inl (hcl a c ha ((b.grows.refers (hM a ha)).1 r))
  · exact (b.refs a c ha r).symm

theorem StepOK.refl {M : Addr → Prop} {h : Heap} (wf : WF h) (hM : ∀ a, M a → a < h.length) (hcl : ∀ a b, M a → Refers h a b → M b) :
    StepOK M h h := (Built.refl wf).stepOK hM hcl

/-- Replacing the object at `t`. -/
theorem stepOK_set {M : Addr → Prop} {h : Heap} {t : Addr} {o o' : Obj} (hcl : ∀ a b, M a → Refers h a b → M b) (ho : h[t]? = some o)
    (wf : WF (h.set t o')) (k : SameKind o o') (hMt : M t) (hc : IsDataset h t ∨ ∃ l, IsCollection h t l)
    (hlen : ∀ a b, Refers h a b → a < h.length)
    (hr : ∀ b, Refers (h.set t o') t b → M b) : StepOK M h (h.set t o') := by
  have hne : ∀ {b}, t ≠ b → (h.set t o')[b]? = h[b]? := fun hb => by rw [List.getElem?_set, if_neg hb]
  refine ⟨wf, ext_set ho k, ?_, ?_⟩
  · intro b _ hb
    by_cases e : t = b
    · subst e; exact ⟨hMt, hc⟩
    · exact absurd (hne e) hb
  · intro a b ha r
    by_cases e : t = a
    · subst e; exact Or.inl (hr b r)
    · have r' : Refers h a b := by
        cases r with
        | ptr h1 hk => exact .ptr (by rwa [hne e] at h1) hk
        | slice h1 hk => exact .slice (by rwa [hne e] at h1) hk
        | wrapped h1 => exact .wrapped (by rwa [hne e] at h1)
        | elem h1 hk => exact .elem (by unfold IsCollection at *; rwa [hne e] at h1) hk
      rcases ha with ha | ha
      · exact Or.inl (hcl a b ha r')
      · have := hlen a b r'; omega

theorem wraps_reach {h : Heap} {a t : Addr} (w : Wraps h a t) : Reach h a t := by
  induction w with
  | plain => exact .refl
  | wrapper hb _ ih => exact .step (.wrapped hb) ih

theorem reach_closed {h : Heap} {M : Addr → Prop} (hcl : ∀ a b, M a → Refers h a b → M b) {a b : Addr} (r : Reach h a b) (ha : M a) : M b := by
  induction r with
  | refl => exact ha
  | step h1 _ ih => exact ih (hcl _ _ ha h1)

theorem refers_ds {h : Heap} {t b : Addr} {m : AMap Val} (ho : h[t]? = some (.ds m)) (r : Refers h t b) : ∃ k v, (k, v) ∈ m ∧ RefV v b := by
  cases r with
  | ptr h1 hk => rw [ho] at h1; cases h1; exact ⟨_, _, hk, Or.inl rfl⟩
  | slice h1 hk => rw [ho] at h1; cases h1; exact ⟨_, _, hk, Or.inr ⟨_, rfl⟩⟩
  | wrapped h1 => rw [ho] at h1; cases h1
  | elem h1 hk => unfold IsCollection at h1; rw [ho] at h1; rcases h1 with h1 | h1 <;> cases h1

theorem refers_of_ds {h : Heap} {t b : Addr} {m : AMap Val} (ho : h[t]? = some (.ds m)) {k : Str} {v : Val} (hk : (k, v) ∈ m) (hb : RefV v b) : Refers h t b := by
  rcases hb with rfl | ⟨sk, rfl⟩
  · exact .ptr ho hk
  · exact .slice ho hk

theorem refers_col {h : Heap} {t b : Addr} {l : List (Option Addr)} (ho : IsCollection h t l) (r : Refers h t b) : some b ∈ l := by
  cases r with
  | ptr h1 hk => unfold IsCollection at ho; rw [h1] at ho; rcases ho with h1 | h1 <;> cases h1
  | slice h1 hk => unfold IsCollection at ho; rw [h1] at ho; rcases ho with h1 | h1 <;> cases h1
  | wrapped h1 => unfold IsCollection at ho; rw [h1] at ho; rcases ho with h1 | h1 <;> cases h1
  | elem h1 hk =>
    rcases ho with ho | ho <;> rcases h1 with h1 | h1 <;> rw [ho] at h1 <;> cases h1 <;> exact hk

/-- Replacing the elements of a collection. -/
theorem stepOK_setElems {M : Addr → Prop} {h : Heap} (wf : WF h) (hcl : ∀ a b, M a → Refers h a b → M b) {c : Addr} {l l' : List (Option Addr)}
    (hc : IsCollection h c l) (hMc : M c) (hd : ∀ b : Addr, some b ∈ l' → IsDataset h b) (hr : ∀ b, some b ∈ l' → M b) : StepOK M h (setElems h c l') := by
  have hw := setElems_wf wf hc hd
  have he := setElems_elems hc l'
  obtain ⟨o, o', h1, h2, h3, _⟩ := sameKind_col hc l'
  rw [h3] at hw he ⊢
  exact stepOK_set hcl h1 hw h2 hMc (Or.inr ⟨l, hc⟩) (fun a b r => (refers_lt wf r).1) (fun b r => hr b (refers_col he r))

/-- Every call a program can make is as `StepOK` says. -/
theorem Call.run_ok {M : Addr → Prop} {h : Heap} (wf : WF h) (hM : ∀ a, M a → a < h.length) (hcl : ∀ a b, M a → Refers h a b → M b)
    (c : Call) (hc : c.Legal h) (hm : ∀ b, c.Mentions b → M b) : StepOK M h (c.run h) := by
  have refl := StepOK.refl wf hM hcl
  have new : ∀ {o : Obj}, WF (h ++ [o]) → (∀ b, Refers (h ++ [o]) h.length b → M b) → StepOK M h (h ++ [o]) := by
    intro o w hr
    exact ((Built.refl wf).snoc w fun b r => Or.inr (hr b r)).stepOK hM hcl
  have noref : ∀ {o : Obj}, (∀ m, o ≠ .ds m) → (∀ b, o ≠ .dsTS (some b)) → (∀ l, o ≠ .col l) → (∀ l, o ≠ .colTS l) → ∀ b, ¬ Refers (h ++ [o]) h.length b := by
    intro o h1 h2 h3 h4 b r
    have hg : (h ++ [o])[h.length]? = some o := by simp
    cases r with
    | ptr h' hk => rw [hg] at h'; cases h'; exact h1 _ rfl
    | slice h' hk => rw [hg] at h'; cases h'; exact h1 _ rfl
    | wrapped h' => rw [hg] at h'; cases h'; exact h2 _ rfl
    | elem h' hk => unfold IsCollection at h'; rw [hg] at h'; rcases h' with h' | h' <;> cases h' <;> first | exact h3 _ rfl | exact h4 _ rfl
  cases c with
  | newDataset =>
    obtain ⟨g1, g2⟩ := built_ds (P := M) (L := h.length + 1) wf (m := []) AMap.nodup_nil (by simp) (by simp)
    refine new g1 fun b r => ?_
    have := refers_lt g1 r
    rcases g2 b r with h' | h'
    · simp at this; omega
    · exact h'
  | newTS i =>
    cases i with
    | none => exact new (wf_append wf trivial) fun b r => absurd r (noref (by simp) (by simp) (by simp) (by simp) b)
    | some a =>
      obtain ⟨g1, _⟩ := built_wrapper (P := M) (L := 0) wf hc (Nat.zero_le _)
      refine new g1 fun b r => ?_
      have hg : (h ++ [Obj.dsTS (some a)])[h.length]? = some (.dsTS (some a)) := by simp
      have : b = a := by
        cases r with
        | ptr h1 hk => rw [hg] at h1; cases h1
        | slice h1 hk => rw [hg] at h1; cases h1
        | wrapped h1 => rw [hg] at h1; cases h1; rfl
        | elem h1 hk => unfold IsCollection at h1; rw [hg] at h1; rcases h1 with h1 | h1 <;> cases h1
      exact hm b this
  | newCollection =>
    obtain ⟨g1, g2⟩ := built_col (P := M) (L := h.length + 1) wf (l := []) (by simp) (by simp) (Or.inl rfl)
    refine new g1 fun b r => ?_
    have := refers_col (l := []) (Or.inl (by simp)) r
    simp at this
  | newCollectionTS =>
    obtain ⟨g1, g2⟩ := built_col (P := M) (L := h.length + 1) wf (l := []) (by simp) (by simp) (Or.inr rfl)
    refine new g1 fun b r => ?_
    have := refers_col (l := []) (Or.inr (by simp)) r
    simp at this
  | newSlice l => exact new (wf_append wf trivial) fun b r => absurd r (noref (by simp) (by simp) (by simp) (by simp) b)
  | newLang l => exact new (wf_append wf trivial) fun b r => absurd r (noref (by simp) (by simp) (by simp) (by simp) b)
  | set a k v =>
    simp only [Call.run]
    cases e : Dataset.set h a k v with
    | ok h' =>
      have w := (set_wf wf hc.2 e).1
      obtain ⟨t, m, ht, hmt, rfl⟩ := set_eq e
      have hw := (target_iff wf).1 ht
      have hMt : M t := reach_closed hcl (wraps_reach hw) (hm a (Or.inl rfl))
      refine stepOK_set hcl hmt w trivial hMt (Or.inl (Or.inl ⟨_, hmt⟩)) (fun a b r => (refers_lt wf r).1) ?_
      intro b r
      obtain ⟨k', v', hk', hb⟩ := refers_ds (List.getElem?_set_self (lt_of_getElem? hmt)) r
      rcases mem_set_cases hk' with hk' | hk'
      · cases hk'; exact hm b (Or.inr hb)
      · exact hcl t b hMt (refers_of_ds hmt hk' hb)
    | panic => exact refl
    | diverge => exact refl
  | del a k =>
    simp only [Call.run]
    cases e : Dataset.del h a k with
    | ok h' =>
      have w := (del_wf wf e).1
      obtain ⟨t, m, ht, hmt, rfl⟩ := del_eq e
      have hw := (target_iff wf).1 ht
      have hMt : M t := reach_closed hcl (wraps_reach hw) (hm a rfl)
      refine stepOK_set hcl hmt w trivial hMt (Or.inl (Or.inl ⟨_, hmt⟩)) (fun a b r => (refers_lt wf r).1) ?_
      intro b r
      obtain ⟨k', v', hk', hb⟩ := refers_ds (List.getElem?_set_self (lt_of_getElem? hmt)) r
      exact hcl t b hMt (refers_of_ds hmt (mem_del_cases hk') hb)
    | panic => exact refl
    | diverge => exact refl
  | push c d =>
    obtain ⟨⟨l, hl⟩, hd⟩ := hc
    have hMc : M c := hm c (Or.inl rfl)
    simp only [Call.run, Dataset.push, elems_of hl]
    refine stepOK_setElems wf hcl hl hMc ?_ ?_
    · intro b hb
      rcases List.mem_append.1 hb with h | h
      · exact wf.elem c l b hl h
      · simp only [List.mem_singleton] at h; exact hd b h.symm
    · intro b hb
      rcases List.mem_append.1 hb with h | h
      · exact hcl c b hMc (.elem hl h)
      · simp only [List.mem_singleton] at h; exact hm b (Or.inr h.symm)
  | unshift c d =>
    obtain ⟨⟨l, hl⟩, hd⟩ := hc
    have hMc : M c := hm c (Or.inl rfl)
    simp only [Call.run, Dataset.unshift, elems_of hl]
    refine stepOK_setElems wf hcl hl hMc ?_ ?_
    · intro b hb
      rcases List.mem_cons.1 hb with h | h
      · exact hd b h.symm
      · exact wf.elem c l b hl h
    · intro b hb
      rcases List.mem_cons.1 hb with h | h
      · exact hm b (Or.inr h.symm)
      · exact hcl c b hMc (.elem hl h)
  | pop c =>
    obtain ⟨l, hl⟩ := hc
    have hMc : M c := hm c rfl
    simp only [Call.run, Dataset.pop, elems_of hl]
    cases hlast : l.getLast? with
    | none => exact refl
    | some d =>
      have hsub : ∀ b, b ∈ l.dropLast → b ∈ l := fun b hb => (List.dropLast_sublist l).subset hb
      exact stepOK_setElems wf hcl hl hMc (fun b hb => wf.elem c l b hl (hsub _ hb)) (fun b hb => hcl c b hMc (.elem hl (hsub _ hb)))
  | shift c =>
    obtain ⟨l, hl⟩ := hc
    have hMc : M c := hm c rfl
    simp only [Call.run, Dataset.shift, elems_of hl]
    cases l with
    | nil => exact refl
    | cons x l =>
      exact stepOK_setElems wf hcl hl hMc (fun b hb => wf.elem c _ b hl (by simp [hb])) (fun b hb => hcl c b hMc (.elem hl (by simp [hb])))
  | clone n a =>
    simp only [Call.run]
    cases e : cloneVal n h (.ptr a) with
    | ok r =>
      have hMa : M a := hm a rfl
      exact (clone_built (v := .ptr a) (w := r.2) wf hc hM hcl (by rintro b (hb | ⟨_, hb⟩) <;> cases hb; exact hMa) e).1.stepOK hM hcl
    | panic => exact refl
    | diverge => exact refl
  | build m => exact (newXDataset_built M wf hc fun v b ho hb => hm b ⟨v, ho, hb⟩).stepOK hM hcl
  | buildCollection l => exact (buildVal_built M (.maps l) h wf hc fun v b ho hb => hm b ⟨v, ho, hb⟩).1.stepOK hM hcl

theorem Call.run_wf {h : Heap} (wf : WF h) (c : Call) (hc : c.Legal h) : WF (c.run h) ∧ Ext' h (c.run h) := by
  have hm : ∀ b, c.Mentions b → b < h.length := by
    intro b hb
    have hv : ∀ {v}, Valid h v → RefV v b → b < h.length := by
      rintro v hv (rfl | ⟨k, rfl⟩)
      · exact hv
      · obtain ⟨l, hl⟩ := hv; exact lt_of_getElem? hl
    cases c with
    | newTS i => cases i with
      | none => exact hb.elim
      | some a => cases hb; exact isDataset_lt hc
    | set a k v => rcases hb with rfl | hb; exact isDataset_lt hc.1; exact hv hc.2 hb
    | del a k => cases hb; exact isDataset_lt hc
    | push c d => obtain ⟨⟨l, hl⟩, hd⟩ := hc; rcases hb with rfl | hb; exact isCollection_lt hl; exact isDataset_lt (hd b hb)
    | unshift c d => obtain ⟨⟨l, hl⟩, hd⟩ := hc; rcases hb with rfl | hb; exact isCollection_lt hl; exact isDataset_lt (hd b hb)
    | pop c => obtain ⟨l, hl⟩ := hc; cases hb; exact isCollection_lt hl
    | shift c => obtain ⟨l, hl⟩ := hc; cases hb; exact isCollection_lt hl
    | clone n a => cases hb; exact hc
    | build m => obtain ⟨v, h1, h2⟩ := hb; exact hv (hc v h1) h2
    | buildCollection m => obtain ⟨v, h1, h2⟩ := hb; exact hv (hc v h1) h2
    | _ => exact hb.elim
  have := Call.run_ok (M := fun a => a < h.length) wf (fun _ h => h) (fun a b _ r => (refers_lt wf r).2) c hc hm
  exact ⟨this.wf, this.ext⟩

theorem Reachable.wf {h : Heap} (r : Reachable h) : WF h := by
  induction r with
  | start => exact wf_nil
  | call c _ hc ih => exact (c.run_wf ih hc).1

end Xcore.Dataset
