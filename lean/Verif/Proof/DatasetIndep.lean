import Verif.Proof.DatasetStep
import Verif.Proof.DatasetBisim

/-!
# Cloning: termination, equality and independence
-/

namespace Xcore.Dataset

/-! ## Termination -/

theorem mapRes_total {σ α β : Type} {I : σ → Prop} {f : σ → α → Res (σ × β)} {l : List α}
    (hf : ∀ a ∈ l, ∀ s, I s → ∃ s' b, f s a = .ok (s', b) ∧ I s') : ∀ s, I s → ∃ s' bs, mapRes f s l = .ok (s', bs) ∧ I s' := by
  induction l with
  | nil => intro s hs; exact ⟨s, [], rfl, hs⟩
  | cons a l ih =>
    intro s hs
    obtain ⟨s1, b, e1, h1⟩ := hf a (by simp) s hs
    obtain ⟨s2, bs, e2, h2⟩ := ih (fun a ha => hf a (by simp [ha])) s1 h1
    exact ⟨s2, b :: bs, mapRes_cons_ok.2 ⟨s1, b, bs, e1, e2, rfl⟩, h2⟩

theorem Reach.tail {h : Heap} {a b c : Addr} (r : Reach h a b) (s : Refers h b c) : Reach h a c := r.trans (.step s .refl)

/-- Cloning what is reachable from acyclic data ends; nesting is at most the number of objects. -/
theorem clone_total_aux {h : Heap} (wf : WF h) {a : Addr} (ha : a < h.length) (hac : Acyclic h a) (hcl : Clean h a) :
    ∀ (n : Nat) (vis : List Addr) (b : Addr), Reach h a b → vis.Nodup → (∀ v ∈ vis, Reach h a v ∧ ∃ c, Refers h v c ∧ Reach h c b) →
      h.length ≤ vis.length + n → ∀ d, n + 1 ≤ d → ∀ h1, Grows h h1 → WF h1 → ∃ h2 w, cloneVal d h1 (.ptr b) = .ok (h2, w) ∧ (Grows h h2 ∧ WF h2) := by
  intro n
  induction n with
  | zero =>
    intro vis b rb nd hv hl
    exfalso
    have hb : b ∉ vis := fun hb => by
      obtain ⟨h1, c, h2, h3⟩ := hv b hb
      exact hac b c h1 h2 h3
    have : (b :: vis).length ≤ h.length := by
      rw [← List.length_range (n := h.length)]
      refine Xcore.nodup_length_le (List.nodup_cons.2 ⟨hb, nd⟩) ?_
      intro v hv'
      rw [List.mem_range]
      rcases List.mem_cons.1 hv' with rfl | hv'
      · exact reach_lt wf rb ha
      · exact reach_lt wf (hv v hv').1 ha
    simp at this hl; omega
  | succ n ih =>
    intro vis b rb nd hv hl d hd h1 g1 wf1
    have hb : b ∉ vis := fun hb => by
      obtain ⟨h1, c, h2, h3⟩ := hv b hb
      exact hac b c h1 h2 h3
    have child : ∀ c, Refers h b c → ∀ d, n + 1 ≤ d → ∀ h1, Grows h h1 → WF h1 → ∃ h2 w, cloneVal d h1 (.ptr c) = .ok (h2, w) ∧ (Grows h h2 ∧ WF h2) := by
      intro c hc
      refine ih (b :: vis) c (rb.tail hc) (List.nodup_cons.2 ⟨hb, nd⟩) ?_ (by simp; omega)
      intro v hv'
      rcases List.mem_cons.1 hv' with rfl | hv'
      · exact ⟨rb, c, hc, .refl⟩
      · obtain ⟨h1, x, h2, h3⟩ := hv v hv'
        exact ⟨h1, x, h2, h3.tail hc⟩
    have hlt : b < h.length := reach_lt wf rb ha
    obtain ⟨hcl1, hcl2⟩ := hcl b rb
    -- it is enough that the call ends
    have fin : ∀ {r}, cloneVal d h1 (.ptr b) = .ok r → ∃ h2 w, cloneVal d h1 (.ptr b) = .ok (h2, w) ∧ (Grows h h2 ∧ WF h2) := by
      intro r e
      obtain ⟨k1, k2, _⟩ := clone_copy (v := .ptr b) (w := r.2) (h' := r.1) wf1 (Nat.lt_of_lt_of_le hlt g1.length) e
      exact ⟨r.1, r.2, e, g1.trans k2, k1⟩
    obtain ⟨d, rfl⟩ : ∃ d', d = d' + 1 := ⟨d - 1, by omega⟩
    have hd' : n + 1 ≤ d := by omega
    cases ho : h[b]? with
    | none => rw [List.getElem?_eq_getElem hlt] at ho; cases ho
    | some o =>
      have ho1 := g1.get ho
      have elems : ∀ l, IsCollection h b l → ∃ r, mapRes (fun h (e : Option Addr) => match e with
            | none => .panic
            | some b => cloneVal d h (.ptr b)) h1 l = .ok r := by
        intro l hl
        obtain ⟨s, bs, e, _⟩ := mapRes_total (I := fun h1 => Grows h h1 ∧ WF h1) (f := fun h (e : Option Addr) => match e with
            | none => .panic
            | some b => cloneVal d h (.ptr b)) (l := l) (by
              intro e he s hs
              cases e with
              | none => exact absurd he (hcl2 l hl)
              | some c => exact child c (.elem hl he) d hd' s hs.1 hs.2) h1 ⟨g1, wf1⟩
        exact ⟨_, e⟩
      cases o with
      | ds m =>
        obtain ⟨s, bs, e, _⟩ := mapRes_total (I := fun h1 => Grows h h1 ∧ WF h1) (f := fun h (p : Str × Val) => (cloneVal d h p.2).map fun r => (r.1, (p.1, r.2))) (l := m) (by
          intro p hp s hs
          obtain ⟨k, v⟩ := p
          have triv : cloneVal d s v = .ok (s, v) → ∃ s' b, (cloneVal d s v).map (fun r => (r.1, (k, r.2))) = .ok (s', b) ∧ (Grows h s' ∧ WF s') := by
            intro e; rw [e]; exact ⟨s, _, rfl, hs⟩
          cases v with
          | ptr c =>
            obtain ⟨h2, w, e, i⟩ := child c (.ptr ho hp) d hd' s hs.1 hs.2
            refine ⟨h2, (k, w), ?_, i⟩
            simp only [e, Res.map]
          | _ => exact triv (by obtain ⟨d', rfl⟩ : ∃ d', d = d' + 1 := ⟨d - 1, by omega⟩; rfl)) h1 ⟨g1, wf1⟩
        exact fin (r := _) (by simp only [cloneVal, ho1]; exact map_ok.2 ⟨_, e, rfl⟩)
      | dsTS i =>
        cases i with
        | none => exact absurd ho hcl1
        | some c =>
          obtain ⟨h2, w, e, i⟩ := child c (.wrapped ho) d hd' h1 g1 wf1
          have hc := (wf.wrapper b c ho).2
          obtain ⟨_, k2, k3⟩ := clone_copy (v := .ptr c) wf1 (Nat.lt_of_lt_of_le (isDataset_lt hc) g1.length) e
          obtain ⟨c', rfl, _⟩ := k3.isDataset (i.1.ext.isDataset hc)
          refine fin (r := _) (by simp only [cloneVal, ho1, e, Res.bind]; rfl)
      | col l =>
        obtain ⟨r, e⟩ := elems l (Or.inl ho)
        exact fin (r := _) (by simp only [cloneVal, ho1]; exact map_ok.2 ⟨_, e, rfl⟩)
      | colTS l =>
        obtain ⟨r, e⟩ := elems l (Or.inr ho)
        exact fin (r := _) (by simp only [cloneVal, ho1]; exact map_ok.2 ⟨_, e, rfl⟩)
      | lang l => exact fin (r := _) (by simp only [cloneVal, ho1]; rfl)
      | slice l => exact fin (r := _) (by simp only [cloneVal, ho1]; rfl)

theorem clone_total {h : Heap} (wf : WF h) {a : Addr} (ha : a < h.length) (hac : Acyclic h a) (hcl : Clean h a) {d : Nat} (hd : h.length < d) :
    ∃ h' w, cloneVal d h (.ptr a) = .ok (h', w) := by
  obtain ⟨h2, w, e, _⟩ := clone_total_aux wf ha hac hcl h.length [] a .refl List.nodup_nil (by simp) (by simp) d hd h (.refl h) wf
  exact ⟨h2, w, e⟩

theorem mapRes_mono {σ α β : Type} {f g : σ → α → Res (σ × β)} (hfg : ∀ s a r, f s a = .ok r → g s a = .ok r) :
    ∀ (l : List α) s r, mapRes f s l = .ok r → mapRes g s l = .ok r := by
  intro l
  induction l with
  | nil => intro s r e; exact e
  | cons a l ih =>
    intro s r e
    obtain ⟨s', bs'⟩ := r
    obtain ⟨s1, b, bs, e1, e2, e3⟩ := mapRes_cons_ok.1 e
    exact mapRes_cons_ok.2 ⟨s1, b, bs, hfg _ _ _ e1, ih _ _ e2, e3⟩

/-- The bound on the depth does not matter once it is large enough. -/
theorem cloneVal_mono {n : Nat} : ∀ {h : Heap} {v : Val} {r : Heap × Val}, cloneVal n h v = .ok r → cloneVal (n + 1) h v = .ok r := by
  induction n with
  | zero => intro h v r e; cases e
  | succ n ih =>
    intro h v r e
    cases v with
    | ptr a =>
      rw [cloneVal] at e ⊢
      cases ho : h[a]? with
      | none => rw [ho] at e; exact e
      | some o =>
        rw [ho] at e
        have elems : ∀ (l : List (Option Addr)) s r, mapRes (fun h (e : Option Addr) => match e with
            | none => .panic
            | some b => cloneVal n h (.ptr b)) s l = .ok r → mapRes (fun h (e : Option Addr) => match e with
            | none => .panic
            | some b => cloneVal (n + 1) h (.ptr b)) s l = .ok r :=
          mapRes_mono (by intro s a r e; cases a with
            | none => exact e
            | some b => exact ih e)
        cases o with
        | ds m =>
          simp only at e ⊢
          obtain ⟨q, e1, rfl⟩ := map_ok.1 e
          rw [mapRes_mono (g := fun h (p : Str × Val) => (cloneVal (n + 1) h p.2).map fun r => (r.1, (p.1, r.2))) (by
            intro s a r e
            obtain ⟨q, e1, rfl⟩ := map_ok.1 e
            rw [ih e1]; rfl) m h q e1]
          rfl
        | dsTS i =>
          cases i with
          | none => exact e
          | some b =>
            simp only at e ⊢
            obtain ⟨q, e1, e2⟩ := bind_ok'.1 e
            rw [ih e1]; exact e2
        | col l =>
          simp only at e ⊢
          obtain ⟨q, e1, rfl⟩ := map_ok.1 e
          exact map_ok.2 ⟨q, elems l h q e1, rfl⟩
        | colTS l =>
          simp only at e ⊢
          obtain ⟨q, e1, rfl⟩ := map_ok.1 e
          exact map_ok.2 ⟨q, elems l h q e1, rfl⟩
        | lang l => exact e
        | slice l => exact e
    | _ => exact e

theorem cloneVal_le {n m : Nat} {h : Heap} {v : Val} {r : Heap × Val} (e : cloneVal n h v = .ok r) (hm : n ≤ m) : cloneVal m h v = .ok r := by
  induction hm with
  | refl => exact e
  | step _ ih => exact cloneVal_mono ih

/-! ## Equality -/

theorem copy_bisim {h h' : Heap} (wf : WF h) (g : Grows h h') (L : Nat) : Bisim h h' fun v w => Valid h v ∧ ∃ n, CopyN L n h' v w := by
  refine ⟨?_, ?_, ?_⟩
  · rintro a w ⟨hv, n, c⟩
    have ha : a < h.length := hv
    cases n with
    | zero => exact c.elim
    | succ n =>
      simp only [CopyN] at c
      rw [g.get_lt ha] at c
      generalize ho : h[a]? = o at c
      have hcol : ∀ {l l' : List (Option Addr)}, IsCollection h a l →
          All2 (fun e e' => ∃ b b', e = some b ∧ e' = some b' ∧ CopyN L n h' (.ptr b) (.ptr b')) l l' →
          All2 (RelElem fun v w => Valid h v ∧ ∃ n, CopyN L n h' v w) l l' := by
        intro l l' hl hh
        refine hh.imp fun e e' hm ⟨b, b', h1, h2, h3⟩ => ?_
        subst h1; subst h2
        exact Or.inr ⟨b, b', rfl, rfl, (isDataset_lt (wf.elem a l b hl hm) : b < h.length), n, h3⟩
      cases o with
      | none => exact c.elim
      | some o =>
        cases o with
        | ds m =>
          obtain ⟨c, m', rfl, _, h3, h4⟩ := c
          refine ⟨c, rfl, ?_⟩
          rw [h3]
          exact .ds (h4.imp fun p q hp ⟨h5, h6⟩ => ⟨h5, wf.valid a m p.1 p.2 ho hp, n, h6⟩)
        | dsTS i =>
          obtain ⟨c, b, b', rfl, rfl, _, h3, h4⟩ := c
          refine ⟨c, rfl, ?_⟩
          rw [h3]
          exact .ts ⟨(isDataset_lt (wf.wrapper a b ho).2 : b < h.length), n, h4⟩
        | col l =>
          obtain ⟨c, l', rfl, _, h3, h4⟩ := c
          refine ⟨c, rfl, ?_⟩
          rw [h3]; exact .col (hcol (Or.inl ho) h4)
        | colTS l =>
          obtain ⟨c, l', rfl, _, h3, h4⟩ := c
          refine ⟨c, rfl, ?_⟩
          rw [h3]; exact .colTS (hcol (Or.inr ho) h4)
        | lang l => cases c; exact ⟨a, rfl, by rw [g.get ho]; exact .lang rfl⟩
        | slice l => cases c; exact ⟨a, rfl, by rw [g.get ho]; exact .slice rfl⟩
  · rintro k a w ⟨hv, n, c⟩
    obtain ⟨l, hl⟩ := hv
    cases n with
    | zero => exact c.elim
    | succ n => cases c; exact ⟨rfl, by rw [g.get hl, hl]⟩
  · rintro v w ⟨hv, n, c⟩ hne
    cases n with
    | zero => exact c.elim
    | succ n => cases v with
      | ptr a => exact absurd rfl (hne a)
      | _ => exact c

/-- The result of cloning a dataset or a collection. -/
theorem clone_new {n : Nat} {h h' : Heap} {a : Addr} {w : Val} (wf : WF h) (ha : a < h.length) (e : cloneVal n h (.ptr a) = .ok (h', w)) :
    ∃ c, w = .ptr c ∧ c < h'.length := by
  obtain ⟨wf', g, c⟩ := clone_copy (v := .ptr a) wf ha e
  obtain ⟨b, rfl, _⟩ := (copy_bisim wf g h.length).ptr (a := a) ⟨(ha : a < h.length), n, c⟩
  have hv : Valid h' (.ptr b) := CopyN.valid (v := .ptr a) (Nat.lt_of_lt_of_le ha g.length : a < h'.length) c
  exact ⟨b, rfl, hv⟩

/-! ## Independence -/

/-- Objects that only refer to each other and have not changed give the same answers. -/
theorem frame_bisim {h h' : Heap} {S : Addr → Prop} (hcl : ∀ a b, S a → Refers h a b → S b) (hs : ∀ a, S a → h'[a]? = h[a]?) :
    Bisim h h' fun v w => w = v ∧ ∀ b, RefV v b → S b := by
  refine ⟨?_, ?_, ?_⟩
  · rintro a w ⟨rfl, r⟩
    have hS := r a (Or.inl rfl)
    refine ⟨a, rfl, ?_⟩
    rw [hs a hS]
    have hcol : ∀ {l : List (Option Addr)}, IsCollection h a l →
        All2 (RelElem fun v w => w = v ∧ ∀ b, RefV v b → S b) l l := by
      intro l hl
      refine All2.diag fun e he => ?_
      cases e with
      | none => exact Or.inl ⟨rfl, rfl⟩
      | some b => exact Or.inr ⟨b, b, rfl, rfl, rfl, by rintro c (hc | ⟨_, hc⟩) <;> cases hc; exact hcl a b hS (.elem hl he)⟩
    cases ho : h[a]? with
    | none => exact .none rfl
    | some o =>
      cases o with
      | ds m => exact .ds (All2.diag fun p hp => ⟨rfl, rfl, fun b hb => hcl a b hS (refers_of_ds ho hp hb)⟩)
      | dsTS i => cases i with
        | none => exact .nilTS
        | some b => exact .ts ⟨rfl, by rintro c (hc | ⟨_, hc⟩) <;> cases hc; exact hcl a b hS (.wrapped ho)⟩
      | col l => exact .col (hcol (Or.inl ho))
      | colTS l => exact .colTS (hcol (Or.inr ho))
      | lang l => exact .lang rfl
      | slice l => exact .slice rfl
  · rintro k a w ⟨rfl, r⟩; exact ⟨rfl, hs a (r a (Or.inr ⟨k, rfl⟩))⟩
  · rintro v w ⟨rfl, _⟩ _; rfl

theorem held_closed {h : Heap} {K : Addr → Prop} : ∀ a b, Held h K a → Refers h a b → Held h K b := by
  rintro a b ⟨r, hr, hra⟩ hab
  exact ⟨r, hr, hra.tail hab⟩

/-- A program that cannot get at the datasets and collections of `S` does not change them. -/
theorem program_frame {S K : Addr → Prop} {h h' : Heap} {cs : List Call} (p : Program K h cs h') (wf : WF h)
    (hK : ∀ a, K a → a < h.length) (hS : ∀ a, S a → a < h.length) (hcl : ∀ a b, S a → Refers h a b → S b)
    (hdis : ∀ b, Held h K b → S b → ¬ IsDataset h b ∧ ∀ l, ¬ IsCollection h b l) :
    WF h' ∧ ∀ a, S a → h'[a]? = h[a]? := by
  induction p with
  | done => exact ⟨wf, fun _ _ => rfl⟩
  | @call K h h' c cs hc hm _ ih =>
    have hM : ∀ a, Held h K a → a < h.length := by
      rintro a ⟨r, hr, hra⟩; exact reach_lt wf hra (hK r hr)
    have st := Call.run_ok wf hM held_closed c hc hm
    have same : ∀ a, S a → (c.run h)[a]? = h[a]? := by
      intro a ha
      apply Classical.byContradiction
      intro hne
      obtain ⟨h1, h2⟩ := st.changed a (hS a ha) hne
      obtain ⟨h3, h4⟩ := hdis a h1 ha
      rcases h2 with h2 | ⟨l, h2⟩
      · exact h3 h2
      · exact h4 l h2
    have held' : ∀ b, Held (c.run h) (fun b => Held h K b ∨ (h.length ≤ b ∧ b < (c.run h).length)) b → Held h K b ∨ h.length ≤ b := by
      rintro b ⟨r, hr, hrb⟩
      have hr' : Held h K r ∨ h.length ≤ r := hr.imp id And.left
      clear hr
      induction hrb with
      | refl => exact hr'
      | step h1 _ ih => exact ih (st.refs _ _ hr' h1)
    have hlen := st.ext.length
    obtain ⟨g1, g2⟩ := ih st.wf (by
        rintro a (ha | ha)
        · exact Nat.lt_of_lt_of_le (hM a ha) hlen
        · exact ha.2) (fun a ha => Nat.lt_of_lt_of_le (hS a ha) hlen) (by
        intro a b ha hab
        refine hcl a b ha ?_
        have := same a ha
        cases hab with
        | ptr h1 hk => exact .ptr (by rwa [this] at h1) hk
        | slice h1 hk => exact .slice (by rwa [this] at h1) hk
        | wrapped h1 => exact .wrapped (by rwa [this] at h1)
        | elem h1 hk => exact .elem (by unfold IsCollection at *; rwa [this] at h1) hk) (by
        intro b hb hbS
        rcases held' b hb with hb' | hb'
        · have := same b hbS
          obtain ⟨h3, h4⟩ := hdis b hb' hbS
          unfold IsDataset IsCollection at *
          rw [this]; exact ⟨h3, h4⟩
        · have := hS b hbS; omega)
    exact ⟨g1, fun a ha => by rw [g2 a ha, same a ha]⟩

/-- The same, about answers. -/
theorem program_sameAnswers {K : Addr → Prop} {h h' : Heap} {cs : List Call} (p : Program K h cs h') (wf : WF h)
    (hK : ∀ a, K a → a < h.length) {c : Addr} (hc : c < h.length)
    (hdis : ∀ b, Held h K b → Reach h c b → ¬ IsDataset h b ∧ ∀ l, ¬ IsCollection h b l) :
    WF h' ∧ SameAnswers h c h' c ∧ ((∃ l, IsCollection h c l) → SameCollection h c h' c) := by
  have hcl : ∀ a b, Reach h c a → Refers h a b → Reach h c b := fun _ _ => Reach.tail
  obtain ⟨wf', hs⟩ := program_frame (S := Reach h c) p wf hK (fun a ha => reach_lt wf ha hc) hcl hdis
  have B := frame_bisim hcl hs
  have r : Val.ptr c = .ptr c ∧ ∀ b, RefV (.ptr c) b → Reach h c b := ⟨rfl, by rintro b (hb | ⟨_, hb⟩) <;> cases hb; exact .refl⟩
  exact ⟨wf', B.sameAnswers wf wf' r, fun ⟨l, hl⟩ => B.sameCollection wf wf' r hl⟩

/-- What a copy refers to is a copy or a slice. -/
theorem copy_refers {L n : Nat} {h : Heap} (wf : WF h) {v : Val} {c b : Addr} (cp : CopyN L n h v (.ptr c)) (r : Refers h c b) :
    (∃ v' n', CopyN L n' h v' (.ptr b)) ∨ ∃ l, h[b]? = some (.slice l) := by
  cases n with
  | zero => exact cp.elim
  | succ n =>
    cases v with
    | ptr a =>
      simp only [CopyN] at cp
      have hcol : ∀ {l l' : List (Option Addr)}, IsCollection h c l' →
          All2 (fun e e' => ∃ b b', e = some b ∧ e' = some b' ∧ CopyN L n h (.ptr b) (.ptr b')) l l' → ∃ v' n', CopyN L n' h v' (.ptr b) := by
        intro l l' hl hh
        obtain ⟨e, _, b1, b2, _, h2, h3⟩ := hh.mem_right (refers_col hl r)
        cases h2; exact ⟨_, _, h3⟩
      cases ho : h[a]? with
      | none => rw [ho] at cp; exact cp.elim
      | some o =>
        rw [ho] at cp
        cases o with
        | ds m =>
          obtain ⟨c', m', e, _, h3, h4⟩ := cp
          cases e
          obtain ⟨k, v, hk, hb⟩ := refers_ds h3 r
          rcases hb with rfl | ⟨sk, rfl⟩
          · obtain ⟨p, _, _, h5⟩ := h4.mem_right hk
            exact Or.inl ⟨_, _, h5⟩
          · exact Or.inr (wf.valid c m' k _ h3 hk)
        | dsTS i =>
          obtain ⟨c', b1, b2, rfl, e, _, h3, h4⟩ := cp
          cases e
          cases r with
          | ptr h1 hk => rw [h3] at h1; cases h1
          | slice h1 hk => rw [h3] at h1; cases h1
          | wrapped h1 => rw [h3] at h1; cases h1; exact Or.inl ⟨_, _, h4⟩
          | elem h1 hk => unfold IsCollection at h1; rw [h3] at h1; rcases h1 with h1 | h1 <;> cases h1
        | col l =>
          obtain ⟨c', l', e, _, h3, h4⟩ := cp
          cases e
          exact Or.inl (hcol (Or.inl h3) h4)
        | colTS l =>
          obtain ⟨c', l', e, _, h3, h4⟩ := cp
          cases e
          exact Or.inl (hcol (Or.inr h3) h4)
        | lang l =>
          cases cp
          cases r with
          | ptr h1 hk => rw [ho] at h1; cases h1
          | slice h1 hk => rw [ho] at h1; cases h1
          | wrapped h1 => rw [ho] at h1; cases h1
          | elem h1 hk => unfold IsCollection at h1; rw [ho] at h1; rcases h1 with h1 | h1 <;> cases h1
        | slice l =>
          cases cp
          cases r with
          | ptr h1 hk => rw [ho] at h1; cases h1
          | slice h1 hk => rw [ho] at h1; cases h1
          | wrapped h1 => rw [ho] at h1; cases h1
          | elem h1 hk => unfold IsCollection at h1; rw [ho] at h1; rcases h1 with h1 | h1 <;> cases h1
    | _ => cases cp

/-- Datasets and collections that are copies are new. -/
theorem copy_container {L n : Nat} {h : Heap} {v : Val} {c : Addr} (cp : CopyN L n h v (.ptr c)) (hc : IsDataset h c ∨ ∃ l, IsCollection h c l) : L ≤ c := by
  cases n with
  | zero => exact cp.elim
  | succ n =>
    cases v with
    | ptr a =>
      simp only [CopyN] at cp
      cases ho : h[a]? with
      | none => rw [ho] at cp; exact cp.elim
      | some o =>
        rw [ho] at cp
        cases o with
        | ds m => obtain ⟨c', m', e, hl, _⟩ := cp; cases e; exact hl
        | dsTS i => obtain ⟨c', _, _, _, e, hl, _⟩ := cp; cases e; exact hl
        | col l => obtain ⟨c', m', e, hl, _⟩ := cp; cases e; exact hl
        | colTS l => obtain ⟨c', m', e, hl, _⟩ := cp; cases e; exact hl
        | lang l => cases cp; unfold IsDataset IsCollection at hc; rw [ho] at hc; simp at hc
        | slice l => cases cp; unfold IsDataset IsCollection at hc; rw [ho] at hc; simp at hc
    | _ => cases cp

/-- All datasets and collections reachable from a copy are new. -/
theorem copy_reach {L n : Nat} {h : Heap} (wf : WF h) {v : Val} {c b : Addr} (cp : CopyN L n h v (.ptr c)) (r : Reach h c b)
    (hb : IsDataset h b ∨ ∃ l, IsCollection h b l) : L ≤ b := by
  have : (∃ v' n', CopyN L n' h v' (.ptr b)) ∨ ∃ l, h[b]? = some (.slice l) := by
    have start : (∃ v' n', CopyN L n' h v' (.ptr c)) ∨ ∃ l, h[c]? = some (.slice l) := Or.inl ⟨v, n, cp⟩
    clear cp hb
    induction r with
    | refl => exact start
    | step h1 _ ih =>
      refine ih ?_
      rcases start with ⟨v', n', cp⟩ | ⟨l, hl⟩
      · exact copy_refers wf cp h1
      · cases h1 with
        | ptr h1 hk => rw [hl] at h1; cases h1
        | slice h1 hk => rw [hl] at h1; cases h1
        | wrapped h1 => rw [hl] at h1; cases h1
        | elem h1 hk => unfold IsCollection at h1; rw [hl] at h1; rcases h1 with h1 | h1 <;> cases h1
  rcases this with ⟨v', n', cp⟩ | ⟨l, hl⟩
  · exact copy_container cp hb
  · unfold IsDataset IsCollection at hb; rw [hl] at hb; simp at hb

theorem old_reach {h h' : Heap} (wf : WF h) (g : Grows h h') {a b : Addr} (ha : a < h.length) (r : Reach h' a b) : b < h.length := by
  induction r with
  | refl => exact ha
  | step h1 _ ih => exact ih (refers_lt wf ((g.refers ha).1 h1)).2

end Xcore.Dataset
