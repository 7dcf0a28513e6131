import Verif.Spec.DatasetClone
import Verif.Proof.DatasetWF

/-!
# Cloning: what a clone is
-/

namespace Xcore.Dataset

/-- Memory grows. -/
def Grows (h h' : Heap) : Prop := ∃ e, h' = h ++ e

theorem Grows.refl (h : Heap) : Grows h h := ⟨[], by simp⟩

theorem Grows.trans {h1 h2 h3 : Heap} (e1 : Grows h1 h2) (e2 : Grows h2 h3) : Grows h1 h3 := by
  obtain ⟨a, rfl⟩ := e1; obtain ⟨b, rfl⟩ := e2; exact ⟨a ++ b, by simp⟩

theorem Grows.get {h h' : Heap} (g : Grows h h') {a : Addr} {o : Obj} (ho : h[a]? = some o) : h'[a]? = some o := by
  obtain ⟨e, rfl⟩ := g
  rw [List.getElem?_append, if_pos (lt_of_getElem? ho)]; exact ho

theorem Grows.get_lt {h h' : Heap} (g : Grows h h') {a : Addr} (ha : a < h.length) : h'[a]? = h[a]? := by
  obtain ⟨e, rfl⟩ := g
  rw [List.getElem?_append, if_pos ha]

theorem Grows.length {h h' : Heap} (g : Grows h h') : h.length ≤ h'.length := by
  obtain ⟨e, rfl⟩ := g; simp

theorem grows_append (h e : Heap) : Grows h (h ++ e) := ⟨e, rfl⟩

theorem Grows.ext {h h' : Heap} (g : Grows h h') : Ext' h h' := by
  obtain ⟨e, rfl⟩ := g; exact ext_append h e

/-- `w` is a copy of `v`: datasets and collections at new addresses (from `L` on), everything else the same. -/
def CopyN (L : Nat) : Nat → Heap → Val → Val → Prop
  | 0, _, _, _ => False
  | n + 1, h, v, w => match v with
    | .ptr a => match h[a]? with
      | some (.ds m) => ∃ (c : Addr) (m' : AMap Val), w = .ptr c ∧ L ≤ c ∧ h[c]? = some (.ds m') ∧
          All2 (fun (p q : Str × Val) => p.1 = q.1 ∧ CopyN L n h p.2 q.2) m m'
      | some (.dsTS i) => ∃ (c b b' : Addr), i = some b ∧ w = .ptr c ∧ L ≤ c ∧ h[c]? = some (.dsTS (some b')) ∧ CopyN L n h (.ptr b) (.ptr b')
      | some (.col l) => ∃ (c : Addr) (l' : List (Option Addr)), w = .ptr c ∧ L ≤ c ∧ h[c]? = some (.col l') ∧
          All2 (fun e e' => ∃ b b', e = some b ∧ e' = some b' ∧ CopyN L n h (.ptr b) (.ptr b')) l l'
      | some (.colTS l) => ∃ (c : Addr) (l' : List (Option Addr)), w = .ptr c ∧ L ≤ c ∧ h[c]? = some (.colTS l') ∧
          All2 (fun e e' => ∃ b b', e = some b ∧ e' = some b' ∧ CopyN L n h (.ptr b) (.ptr b')) l l'
      | some (.lang _) => w = v
      | some (.slice _) => w = v
      | none => False
    | v => w = v

theorem CopyN.grow {L L' n : Nat} {h h' : Heap} {v w : Val} (g : Grows h h') (hL : L' ≤ L) (c : CopyN L n h v w) : CopyN L' n h' v w := by
  induction n generalizing v w with
  | zero => exact c.elim
  | succ n ih =>
    cases v with
    | ptr a =>
      simp only [CopyN] at c ⊢
      cases ho : h[a]? with
      | none => rw [ho] at c; exact c.elim
      | some o =>
        rw [ho] at c
        rw [g.get ho]
        have hcol : ∀ {l l' : List (Option Addr)},
            All2 (fun e e' => ∃ b b', e = some b ∧ e' = some b' ∧ CopyN L n h (.ptr b) (.ptr b')) l l' →
            All2 (fun e e' => ∃ b b', e = some b ∧ e' = some b' ∧ CopyN L' n h' (.ptr b) (.ptr b')) l l' :=
          fun h4 => h4.imp fun e e' _ ⟨b, b', h1, h2, h3⟩ => ⟨b, b', h1, h2, ih h3⟩
        cases o with
        | ds m =>
          obtain ⟨x, m', h1, h2, h3, h4⟩ := c
          exact ⟨x, m', h1, by omega, g.get h3, h4.imp fun p q _ ⟨h5, h6⟩ => ⟨h5, ih h6⟩⟩
        | dsTS i =>
          obtain ⟨x, b, b', h0, h1, h2, h3, h4⟩ := c
          exact ⟨x, b, b', h0, h1, by omega, g.get h3, ih h4⟩
        | col l =>
          obtain ⟨x, m', h1, h2, h3, h4⟩ := c
          exact ⟨x, m', h1, by omega, g.get h3, hcol h4⟩
        | colTS l =>
          obtain ⟨x, m', h1, h2, h3, h4⟩ := c
          exact ⟨x, m', h1, by omega, g.get h3, hcol h4⟩
        | lang l => exact c
        | slice l => exact c
    | _ => exact c

theorem CopyN.valid {L n : Nat} {h : Heap} {v w : Val} (hv : Valid h v) (c : CopyN L n h v w) : Valid h w := by
  cases n with
  | zero => exact c.elim
  | succ n =>
    cases v with
    | ptr a =>
      simp only [CopyN] at c
      cases ho : h[a]? with
      | none => rw [ho] at c; exact c.elim
      | some o =>
        rw [ho] at c
        cases o with
        | ds m => obtain ⟨x, m', rfl, _, h3, _⟩ := c; exact lt_of_getElem? h3
        | dsTS i => obtain ⟨x, b, b', _, rfl, _, h3, _⟩ := c; exact lt_of_getElem? h3
        | col l => obtain ⟨x, m', rfl, _, h3, _⟩ := c; exact lt_of_getElem? h3
        | colTS l => obtain ⟨x, m', rfl, _, h3, _⟩ := c; exact lt_of_getElem? h3
        | lang l => cases c; exact hv
        | slice l => cases c; exact hv
    | _ => cases c; exact hv

theorem CopyN.isDataset {L n : Nat} {h : Heap} {a : Addr} {w : Val} (c : CopyN L n h (.ptr a) w) (hd : IsDataset h a) :
    ∃ b, w = .ptr b ∧ L ≤ b ∧ IsDataset h b := by
  cases n with
  | zero => exact c.elim
  | succ n =>
    simp only [CopyN] at c
    rcases hd with ⟨m, hm⟩ | ⟨i, hi⟩
    · rw [hm] at c
      obtain ⟨x, m', h1, h2, h3, _⟩ := c
      exact ⟨x, h1, h2, Or.inl ⟨_, h3⟩⟩
    · rw [hi] at c
      obtain ⟨x, b, b', _, h1, h2, h3, _⟩ := c
      exact ⟨x, h1, h2, Or.inr ⟨_, h3⟩⟩

theorem foldl_set {V : Type} (l acc : AMap V) (hn : (acc ++ l).map Prod.fst |>.Nodup) :
    l.foldl (fun c p => AMap.set c p.1 p.2) acc = acc ++ l := by
  have set_new : ∀ (m : AMap V) k v, k ∉ AMap.keys m → AMap.set m k v = m ++ [(k, v)] := by
    intro m k v hk
    induction m with
    | nil => rfl
    | cons p m ih =>
      obtain ⟨a, b⟩ := p
      simp only [AMap.keys_cons, List.mem_cons, not_or] at hk
      simp only [AMap.set]
      rw [if_neg (by intro h; exact hk.1 h.symm), ih hk.2]; rfl
  induction l generalizing acc with
  | nil => simp
  | cons p l ih =>
    simp only [List.foldl_cons]
    have hp : p.1 ∉ AMap.keys acc := by
      rw [List.map_append, List.nodup_append] at hn
      intro hk
      exact hn.2.2 p.1 hk p.1 (by simp) rfl
    rw [set_new _ _ _ hp, ih]
    · simp
    · simpa using hn

theorem mapRes_cons_ok {σ α β : Type} {f : σ → α → Res (σ × β)} {s s' : σ} {a : α} {l : List α} {bs : List β} :
    mapRes f s (a :: l) = .ok (s', bs) ↔ ∃ s1 b bs', f s a = .ok (s1, b) ∧ mapRes f s1 l = .ok (s', bs') ∧ bs = b :: bs' := by
  simp only [mapRes]
  cases hf : f s a with
  | ok r =>
    obtain ⟨s1, b⟩ := r
    simp only [Res.bind, Res.ok.injEq, Prod.mk.injEq]
    cases hm : mapRes f s1 l with
    | ok q =>
      obtain ⟨s2, bs2⟩ := q
      simp only [Res.map, Res.ok.injEq, Prod.mk.injEq]
      constructor
      · rintro ⟨rfl, rfl⟩; exact ⟨s1, b, bs2, ⟨rfl, rfl⟩, hm, rfl⟩
      · rintro ⟨s3, b3, bs3, ⟨rfl, rfl⟩, h2, rfl⟩
        rw [hm] at h2; cases h2; exact ⟨rfl, rfl⟩
    | panic =>
      simp only [Res.map, reduceCtorEq, false_iff]
      rintro ⟨s3, b3, bs3, ⟨rfl, rfl⟩, h2, rfl⟩; rw [hm] at h2; cases h2
    | diverge =>
      simp only [Res.map, reduceCtorEq, false_iff]
      rintro ⟨s3, b3, bs3, ⟨rfl, rfl⟩, h2, rfl⟩; rw [hm] at h2; cases h2
  | panic => simp [Res.bind]
  | diverge => simp [Res.bind]

theorem map_ok {α β : Type} {f : α → β} {r : Res α} {b : β} : r.map f = .ok b ↔ ∃ a, r = .ok a ∧ b = f a := by
  cases r <;> simp [Res.map, eq_comm]

theorem bind_ok' {α β : Type} {f : α → Res β} {r : Res α} {b : β} : r.bind f = .ok b ↔ ∃ a, r = .ok a ∧ f a = .ok b := by
  cases r <;> simp [Res.bind]

/-- Cloning appends copies. -/
theorem clone_copy {n : Nat} {h h' : Heap} {v w : Val} (wf : WF h) (hv : Valid h v) (e : cloneVal n h v = .ok (h', w)) :
    WF h' ∧ Grows h h' ∧ CopyN h.length n h' v w := by
  induction n generalizing h h' v w with
  | zero => cases e
  | succ n ih =>
    cases v with
    | ptr a =>
      have helems : ∀ (l : List (Option Addr)) (h h' : Heap) (ws : List Val), WF h → (∀ b : Addr, some b ∈ l → IsDataset h b) →
          mapRes (fun h (e : Option Addr) => match e with
            | none => .panic
            | some b => cloneVal n h (.ptr b)) h l = .ok (h', ws) →
          WF h' ∧ Grows h h' ∧ All2 (fun e e' => ∃ b b', e = some b ∧ e' = some b' ∧ CopyN h.length n h' (.ptr b) (.ptr b') ∧ IsDataset h' b') l
            (ws.map fun w => match w with | .ptr c => some c | _ => none) := by
        intro l
        induction l with
        | nil => intro h h' ws wf _ e; cases e; exact ⟨wf, .refl _, .nil⟩
        | cons d l ihl =>
          intro h h' ws wf hl e
          obtain ⟨h1, b, bs, e1, e2, rfl⟩ := mapRes_cons_ok.1 e
          cases d with
          | none => cases e1
          | some d =>
            have hd := hl d (by simp)
            have hlt : d < h.length := by rcases hd with ⟨_, hd⟩ | ⟨_, hd⟩ <;> exact lt_of_getElem? hd
            obtain ⟨wf1, g1, c1⟩ := ih (v := .ptr d) wf hlt e1
            obtain ⟨wf2, g2, c2⟩ := ihl h1 h' bs wf1 (fun b hb => g1.ext.isDataset (hl b (by simp [hb]))) e2
            obtain ⟨b', rfl, _, hb'⟩ := c1.isDataset (g1.ext.isDataset hd)
            refine ⟨wf2, g1.trans g2, .cons ⟨d, b', rfl, rfl, c1.grow g2 (Nat.le_refl _), g2.ext.isDataset hb'⟩ ?_⟩
            refine c2.imp fun e e' _ ⟨b, b', h1', h2, h3, h4⟩ => ⟨b, b', h1', h2, h3.grow (.refl _) g1.length, h4⟩
      simp only [cloneVal] at e
      cases ho : h[a]? with
      | none => have : a < h.length := hv; rw [List.getElem?_eq_getElem this] at ho; cases ho
      | some o =>
        rw [ho] at e
        cases o with
        | ds m =>
          simp only at e
          obtain ⟨⟨h1, m'⟩, e1, e2⟩ := map_ok.1 e
          cases e2
          have hent : ∀ (m : AMap Val) (h h' : Heap) (m' : AMap Val), WF h → (∀ k v, (k, v) ∈ m → Valid h v) →
              mapRes (fun h (p : Str × Val) => (cloneVal n h p.2).map fun r => (r.1, (p.1, r.2))) h m = .ok (h', m') →
              WF h' ∧ Grows h h' ∧ All2 (fun (p q : Str × Val) => p.1 = q.1 ∧ CopyN h.length n h' p.2 q.2 ∧ Valid h' q.2) m m' := by
            intro m
            induction m with
            | nil => intro h h' m' wf _ e; cases e; exact ⟨wf, .refl _, .nil⟩
            | cons p m ihm =>
              intro h h' m' wf hm e
              obtain ⟨h1, b, bs, e1, e2, rfl⟩ := mapRes_cons_ok.1 e
              obtain ⟨⟨h1', w⟩, e3, e4⟩ := map_ok.1 e1
              obtain ⟨rfl, rfl⟩ := Prod.mk.inj e4
              have hvp := hm p.1 p.2 (by simp)
              obtain ⟨wf1, g1, c1⟩ := ih wf hvp e3
              obtain ⟨wf2, g2, c2⟩ := ihm h1 h' bs wf1 (fun k v hb => (hm k v (by simp [hb])).grow g1.ext) e2
              refine ⟨wf2, g1.trans g2, .cons ⟨rfl, c1.grow g2 (Nat.le_refl _), (c1.valid (hvp.grow g1.ext)).grow g2.ext⟩ ?_⟩
              exact c2.imp fun p q _ ⟨h1', h2, h3⟩ => ⟨h1', h2.grow (.refl _) g1.length, h3⟩
          obtain ⟨wf1, g1, c1⟩ := hent m h h1 m' wf (fun k v hk => wf.valid a m k v ho hk) e1
          have hkeys : m'.map Prod.fst = m.map Prod.fst := by
            have : ∀ {m m' : AMap Val}, All2 (fun (p q : Str × Val) => p.1 = q.1 ∧ CopyN h.length n h1 p.2 q.2 ∧ Valid h1 q.2) m m' →
                m'.map Prod.fst = m.map Prod.fst := by
              intro m m' h; induction h with
              | nil => rfl
              | cons h1 _ ih => simp [h1.1, ih]
            exact this c1
          have hnod : (m'.map Prod.fst).Nodup := by rw [hkeys]; exact wf.nodup a m ho
          have hfold : m'.foldl (fun c p => AMap.set c p.1 p.2) [] = m' := foldl_set m' [] (by simpa using hnod)
          simp only [hfold]
          have g2 := grows_append h1 [Obj.ds m']
          refine ⟨wf_append wf1 ⟨hnod, ?_⟩, g1.trans g2, ?_⟩
          · intro k v hk
            obtain ⟨p, _, _, _, h3⟩ := c1.mem_right hk
            exact h3
          · simp only [CopyN, (g1.trans g2).get ho]
            refine ⟨h1.length, m', rfl, g1.length, by simp, ?_⟩
            exact c1.imp fun p q _ ⟨h1', h2, _⟩ => ⟨h1', h2.grow g2 (Nat.le_refl _)⟩
        | dsTS i =>
          cases i with
          | none => cases e
          | some b =>
            simp only at e
            obtain ⟨⟨h1, w1⟩, e1, e2⟩ := bind_ok'.1 e
            have hb := wf.wrapper a b ho
            have hlt : b < h.length := by have := lt_of_getElem? ho; omega
            obtain ⟨wf1, g1, c1⟩ := ih (v := .ptr b) wf hlt e1
            obtain ⟨c, rfl, _, hc⟩ := c1.isDataset (g1.ext.isDataset hb.2)
            cases e2
            have g2 := grows_append h1 [Obj.dsTS (some c)]
            refine ⟨wf_append wf1 ⟨?_, hc⟩, g1.trans g2, ?_⟩
            · rcases hc with ⟨_, hc⟩ | ⟨_, hc⟩ <;> exact lt_of_getElem? hc
            · simp only [CopyN, (g1.trans g2).get ho]
              exact ⟨h1.length, b, c, rfl, rfl, g1.length, by simp, c1.grow g2 (Nat.le_refl _)⟩
        | col l =>
          simp only at e
          obtain ⟨⟨h1, ws⟩, e1, e2⟩ := map_ok.1 e
          cases e2
          obtain ⟨wf1, g1, c1⟩ := helems l h h1 ws wf (fun b hb => wf.elem a l b (Or.inl ho) hb) e1
          simp only
          generalize (ws.map fun w => match w with | .ptr c => some c | _ => none) = l' at c1 ⊢
          have g2 := grows_append h1 [Obj.col l']
          refine ⟨wf_append wf1 ?_, g1.trans g2, ?_⟩
          · intro b hb
            obtain ⟨p, _, b1, b2, _, h2, _, h4⟩ := c1.mem_right hb
            cases h2; exact h4
          · simp only [CopyN, (g1.trans g2).get ho]
            refine ⟨h1.length, l', rfl, g1.length, by simp, ?_⟩
            exact c1.imp fun p q _ ⟨b, b', h1', h2, h3, _⟩ => ⟨b, b', h1', h2, h3.grow g2 (Nat.le_refl _)⟩
        | colTS l =>
          simp only at e
          obtain ⟨⟨h1, ws⟩, e1, e2⟩ := map_ok.1 e
          cases e2
          obtain ⟨wf1, g1, c1⟩ := helems l h h1 ws wf (fun b hb => wf.elem a l b (Or.inr ho) hb) e1
          simp only
          generalize (ws.map fun w => match w with | .ptr c => some c | _ => none) = l' at c1 ⊢
          have g2 := grows_append h1 [Obj.colTS l']
          refine ⟨wf_append wf1 ?_, g1.trans g2, ?_⟩
          · intro b hb
            obtain ⟨p, _, b1, b2, _, h2, _, h4⟩ := c1.mem_right hb
            cases h2; exact h4
          · simp only [CopyN, (g1.trans g2).get ho]
            refine ⟨h1.length, l', rfl, g1.length, by simp, ?_⟩
            exact c1.imp fun p q _ ⟨b, b', h1', h2, h3, _⟩ => ⟨b, b', h1', h2, h3.grow g2 (Nat.le_refl _)⟩
        | lang l => cases e; exact ⟨wf, .refl _, by simp [CopyN, ho]⟩
        | slice l => cases e; exact ⟨wf, .refl _, by simp [CopyN, ho]⟩
    | _ => cases e; exact ⟨wf, .refl _, rfl⟩

end Xcore.Dataset
