import Verif.Spec.DatasetBuild
import Verif.Proof.DatasetClone

/-!
# NewXDataset
-/

namespace Xcore.Dataset

/-- What building does to memory: it grows, and new objects refer to new objects or those in the source (`P`). -/
structure Built (P : Addr → Prop) (h h' : Heap) : Prop where
  wf : WF h'
  grows : Grows h h'
  refs : ∀ a b, h.length ≤ a → Refers h' a b → h.length ≤ b ∨ P b

theorem Built.refl {P : Addr → Prop} {h : Heap} (wf : WF h) : Built P h h :=
  ⟨wf, .refl h, by
    intro a b ha r
    have : ∀ {o}, h[a]? = some o → False := fun ho => by have := lt_of_getElem? ho; omega
    cases r with
    | ptr ho => exact (this ho).elim
    | slice ho => exact (this ho).elim
    | wrapped ho => exact (this ho).elim
    | elem ho => rcases ho with ho | ho <;> exact (this ho).elim⟩

theorem refers_append {h : Heap} {e : List Obj} {a b : Addr} (ha : a < h.length) : Refers (h ++ e) a b ↔ Refers h a b := by
  have hg : (h ++ e)[a]? = h[a]? := by rw [List.getElem?_append, if_pos ha]
  constructor
  · intro r
    cases r with
    | ptr ho hk => exact .ptr (by rwa [hg] at ho) hk
    | slice ho hk => exact .slice (by rwa [hg] at ho) hk
    | wrapped ho => exact .wrapped (by rwa [hg] at ho)
    | elem ho hk => exact .elem (by unfold IsCollection at *; rwa [hg] at ho) hk
  · intro r
    cases r with
    | ptr ho hk => exact .ptr (by rwa [hg]) hk
    | slice ho hk => exact .slice (by rwa [hg]) hk
    | wrapped ho => exact .wrapped (by rwa [hg])
    | elem ho hk => exact .elem (by unfold IsCollection at *; rwa [hg]) hk

theorem Grows.refers {h h' : Heap} (g : Grows h h') {a b : Addr} (ha : a < h.length) : Refers h' a b ↔ Refers h a b := by
  obtain ⟨e, rfl⟩ := g; exact refers_append ha

theorem Built.trans {P : Addr → Prop} {h h1 h2 : Heap} (b1 : Built P h h1) (b2 : Built P h1 h2) : Built P h h2 := by
  refine ⟨b2.wf, b1.grows.trans b2.grows, ?_⟩
  intro a b ha r
  rcases Nat.lt_or_ge a h1.length with hlt | hge
  · rw [b2.grows.refers hlt] at r; exact b1.refs a b ha r
  · rcases b2.refs a b hge r with h3 | h3
    · have := b1.grows.length; left; omega
    · exact Or.inr h3

theorem Built.mono {P Q : Addr → Prop} {h h1 : Heap} (b1 : Built P h h1) (hpq : ∀ b, P b → Q b) : Built Q h h1 :=
  ⟨b1.wf, b1.grows, fun a b ha r => (b1.refs a b ha r).imp id (hpq b)⟩

/-- A new dataset. -/
theorem built_ds {P : Addr → Prop} {h : Heap} (wf : WF h) {m : AMap Val} (hn : m.Nodup) (hv : ∀ k v, (k, v) ∈ m → Valid h v)
    {L : Nat} (hr : ∀ k v b, (k, v) ∈ m → RefV v b → L ≤ b ∨ P b) :
    WF (h ++ [.ds m]) ∧ ∀ b, Refers (h ++ [Obj.ds m]) h.length b → L ≤ b ∨ P b := by
  refine ⟨wf_append wf ⟨hn, hv⟩, ?_⟩
  intro b r
  have hg : (h ++ [Obj.ds m])[h.length]? = some (.ds m) := by simp
  cases r with
  | ptr ho hk => rw [hg] at ho; cases ho; exact hr _ _ b hk (Or.inl rfl)
  | slice ho hk => rw [hg] at ho; cases ho; exact hr _ _ b hk (Or.inr ⟨_, rfl⟩)
  | wrapped ho => rw [hg] at ho; cases ho
  | elem ho hk => unfold IsCollection at ho; rw [hg] at ho; rcases ho with ho | ho <;> cases ho

theorem Built.snoc {P : Addr → Prop} {h h1 : Heap} (b1 : Built P h h1) {o : Obj} (wf : WF (h1 ++ [o]))
    (hr : ∀ b, Refers (h1 ++ [o]) h1.length b → h.length ≤ b ∨ P b) : Built P h (h1 ++ [o]) := by
  refine ⟨wf, b1.grows.trans (grows_append _ _), ?_⟩
  intro a b ha r
  rcases Nat.lt_or_ge a h1.length with hlt | hge
  · rw [refers_append hlt] at r; exact b1.refs a b ha r
  · by_cases hEq : a = h1.length
    · subst hEq; exact hr b r
    · have : (h1 ++ [o])[a]? = none := List.getElem?_eq_none (by simp; omega)
      cases r with
      | ptr ho => rw [this] at ho; cases ho
      | slice ho => rw [this] at ho; cases ho
      | wrapped ho => rw [this] at ho; cases ho
      | elem ho => unfold IsCollection at ho; rw [this] at ho; rcases ho with ho | ho <;> cases ho

theorem built_col {P : Addr → Prop} {h : Heap} (wf : WF h) {l : List (Option Addr)} (hd : ∀ b : Addr, some b ∈ l → IsDataset h b)
    {L : Nat} (hr : ∀ b, some b ∈ l → L ≤ b) {o : Obj} (ho : o = .col l ∨ o = .colTS l) :
    WF (h ++ [o]) ∧ ∀ b, Refers (h ++ [o]) h.length b → L ≤ b ∨ P b := by
  have hg : (h ++ [o])[h.length]? = some o := by simp
  refine ⟨wf_append wf (by rcases ho with rfl | rfl <;> exact hd), ?_⟩
  intro b r
  cases r with
  | ptr h1 hk => rw [hg] at h1; rcases ho with rfl | rfl <;> cases h1
  | slice h1 hk => rw [hg] at h1; rcases ho with rfl | rfl <;> cases h1
  | wrapped h1 => rw [hg] at h1; rcases ho with rfl | rfl <;> cases h1
  | elem h1 hk =>
    unfold IsCollection at h1; rw [hg] at h1
    left; apply hr
    rcases ho with rfl | rfl
    · rcases h1 with h1 | h1 <;> cases h1; exact hk
    · rcases h1 with h1 | h1 <;> cases h1; exact hk

mutual
theorem buildVal_built (P : Addr → Prop) : ∀ (r : Raw) (h : Heap), WF h → (∀ v, Occurs v r → Valid h v) → (∀ v b, Occurs v r → RefV v b → P b) →
    Built P h (buildVal h r).1 ∧ Valid (buildVal h r).1 (buildVal h r).2 ∧ (∀ b, RefV (buildVal h r).2 b → h.length ≤ b ∨ P b)
  | .val v, h, wf, hv, hp => by
    simp only [buildVal]
    exact ⟨.refl wf, hv v .val, fun b hb => Or.inr (hp v b .val hb)⟩
  | .map m, h, wf, hv, hp => by
    simp only [buildVal]
    obtain ⟨h1, h2, h3, h4⟩ := buildEntries_built P m h [] h.length wf (fun k r v hk ho => hv v (.map hk ho)) (fun k r v b hk ho => hp v b (.map hk ho))
      (Nat.le_refl _) (by simp) (by simp) (by simp)
    obtain ⟨g1, g2⟩ := built_ds h1.wf h2 h3 h4
    refine ⟨h1.snoc g1 g2, by simp [Valid], ?_⟩
    rintro b (hb | ⟨_, hb⟩)
    · cases hb; left; exact h1.grows.length
    · cases hb
  | .anys l, h, wf, hv, hp => by
    simp only [buildVal]
    obtain ⟨h1, h2⟩ := buildAnys_built P l h wf (fun r v hr ho => hv v (.anys hr ho)) (fun r v b hr ho => hp v b (.anys hr ho))
    obtain ⟨g1, g2⟩ := built_col (P := P) h1.wf (fun b hb => (h2 b hb).1) (fun b hb => (h2 b hb).2) (Or.inl rfl)
    refine ⟨h1.snoc g1 g2, by simp [Valid], ?_⟩
    rintro b (hb | ⟨_, hb⟩)
    · cases hb; left; exact h1.grows.length
    · cases hb
  | .maps l, h, wf, hv, hp => by
    simp only [buildVal]
    obtain ⟨h1, h2⟩ := buildMaps_built P l h wf (fun m k r v hm hr ho => hv v (.maps hm hr ho)) (fun m k r v b hm hr ho => hp v b (.maps hm hr ho))
    obtain ⟨g1, g2⟩ := built_col (P := P) h1.wf (fun b hb => (h2 b hb).1) (fun b hb => (h2 b hb).2) (Or.inl rfl)
    refine ⟨h1.snoc g1 g2, by simp [Valid], ?_⟩
    rintro b (hb | ⟨_, hb⟩)
    · cases hb; left; exact h1.grows.length
    · cases hb

theorem buildEntries_built (P : Addr → Prop) : ∀ (m : List (Str × Raw)) (h : Heap) (acc : AMap Val) (L : Nat), WF h →
    (∀ k r v, (k, r) ∈ m → Occurs v r → Valid h v) → (∀ k r v b, (k, r) ∈ m → Occurs v r → RefV v b → P b) → L ≤ h.length →
    acc.Nodup → (∀ k v, (k, v) ∈ acc → Valid h v) → (∀ k v b, (k, v) ∈ acc → RefV v b → L ≤ b ∨ P b) →
    Built P h (buildEntries h m acc).1 ∧ (buildEntries h m acc).2.Nodup ∧
    (∀ k v, (k, v) ∈ (buildEntries h m acc).2 → Valid (buildEntries h m acc).1 v) ∧
    (∀ k v b, (k, v) ∈ (buildEntries h m acc).2 → RefV v b → L ≤ b ∨ P b)
  | [], h, acc, L, wf, _, _, hL, hn, hv, hr => by simp only [buildEntries]; exact ⟨.refl wf, hn, hv, hr⟩
  | (k, r) :: m, h, acc, L, wf, hval, hp, hL, hn, hv, hr => by
    simp only [buildEntries]
    obtain ⟨b1, b2, b3⟩ := buildVal_built P r h wf (fun v ho => hval k r v (by simp) ho) (fun v b ho => hp k r v b (by simp) ho)
    have hlen := b1.grows.length
    obtain ⟨c1, c2, c3, c4⟩ := buildEntries_built P m (buildVal h r).1 (acc.set k (buildVal h r).2) L b1.wf
      (fun k' r' v hk ho => (hval k' r' v (by simp [hk]) ho).grow b1.grows.ext) (fun k' r' v b hk ho => hp k' r' v b (by simp [hk]) ho)
      (by omega) (AMap.nodup_set hn _ _)
      (fun k' v hk => by
        rcases mem_set_cases hk with e | e
        · cases e; exact b2
        · exact (hv _ _ e).grow b1.grows.ext)
      (fun k' v b hk hb => by
        rcases mem_set_cases hk with e | e
        · cases e
          rcases b3 b hb with h' | h'
          · left; omega
          · exact Or.inr h'
        · exact hr _ _ b e hb)
    exact ⟨b1.trans c1, c2, c3, c4⟩

theorem buildAnys_built (P : Addr → Prop) : ∀ (l : List Raw) (h : Heap), WF h → (∀ r v, r ∈ l → Occurs v r → Valid h v) →
    (∀ r v b, r ∈ l → Occurs v r → RefV v b → P b) →
    Built P h (buildAnys h l).1 ∧ ∀ b : Addr, some b ∈ (buildAnys h l).2 → IsDataset (buildAnys h l).1 b ∧ h.length ≤ b
  | [], h, wf, _, _ => by simp only [buildAnys]; exact ⟨.refl wf, by simp⟩
  | .map m :: l, h, wf, hv, hp => by
    simp only [buildAnys]
    obtain ⟨h1, h2, h3, h4⟩ := buildEntries_built P m h [] h.length wf (fun k r v hk ho => hv (.map m) v (by simp) (.map hk ho))
      (fun k r v b hk ho => hp (.map m) v b (by simp) (.map hk ho)) (Nat.le_refl _) (by simp) (by simp) (by simp)
    obtain ⟨g1, g2⟩ := built_ds h1.wf h2 h3 h4
    have b1 := h1.snoc g1 g2
    obtain ⟨c1, c2⟩ := buildAnys_built P l ((buildEntries h m []).1 ++ [.ds (buildEntries h m []).2]) b1.wf
      (fun r v hr ho => (hv r v (by simp [hr]) ho).grow b1.grows.ext) (fun r v b hr ho => hp r v b (by simp [hr]) ho)
    refine ⟨b1.trans c1, ?_⟩
    intro b hb
    rcases List.mem_cons.1 hb with e | e
    · cases e
      exact ⟨Or.inl ⟨_, c1.grows.get (o := .ds (buildEntries h m []).2) (by simp)⟩, h1.grows.length⟩
    · have := c2 b e
      have hlen := b1.grows.length
      exact ⟨this.1, by omega⟩
  | .val v :: l, h, wf, hv, hp => by
    simp only [buildAnys]
    exact buildAnys_built P l h wf (fun r v hr ho => hv r v (by simp [hr]) ho) (fun r v b hr ho => hp r v b (by simp [hr]) ho)
  | .anys _ :: l, h, wf, hv, hp => by
    simp only [buildAnys]
    exact buildAnys_built P l h wf (fun r v hr ho => hv r v (by simp [hr]) ho) (fun r v b hr ho => hp r v b (by simp [hr]) ho)
  | .maps _ :: l, h, wf, hv, hp => by
    simp only [buildAnys]
    exact buildAnys_built P l h wf (fun r v hr ho => hv r v (by simp [hr]) ho) (fun r v b hr ho => hp r v b (by simp [hr]) ho)

theorem buildMaps_built (P : Addr → Prop) : ∀ (l : List (List (Str × Raw))) (h : Heap), WF h →
    (∀ m k r v, m ∈ l → (k, r) ∈ m → Occurs v r → Valid h v) → (∀ m k r v b, m ∈ l → (k, r) ∈ m → Occurs v r → RefV v b → P b) →
    Built P h (buildMaps h l).1 ∧ ∀ b : Addr, some b ∈ (buildMaps h l).2 → IsDataset (buildMaps h l).1 b ∧ h.length ≤ b
  | [], h, wf, _, _ => by simp only [buildMaps]; exact ⟨.refl wf, by simp⟩
  | m :: l, h, wf, hv, hp => by
    simp only [buildMaps]
    obtain ⟨h1, h2, h3, h4⟩ := buildEntries_built P m h [] h.length wf (fun k r v hk ho => hv m k r v (by simp) hk ho)
      (fun k r v b hk ho => hp m k r v b (by simp) hk ho) (Nat.le_refl _) (by simp) (by simp) (by simp)
    obtain ⟨g1, g2⟩ := built_ds h1.wf h2 h3 h4
    have b1 := h1.snoc g1 g2
    obtain ⟨c1, c2⟩ := buildMaps_built P l ((buildEntries h m []).1 ++ [.ds (buildEntries h m []).2]) b1.wf
      (fun m k r v hm hr ho => (hv m k r v (by simp [hm]) hr ho).grow b1.grows.ext) (fun m k r v b hm hr ho => hp m k r v b (by simp [hm]) hr ho)
    refine ⟨b1.trans c1, ?_⟩
    intro b hb
    rcases List.mem_cons.1 hb with e | e
    · cases e
      exact ⟨Or.inl ⟨_, c1.grows.get (o := .ds (buildEntries h m []).2) (by simp)⟩, h1.grows.length⟩
    · have := c2 b e
      have hlen := b1.grows.length
      exact ⟨this.1, by omega⟩
end

theorem newXDataset_built (P : Addr → Prop) {m : List (Str × Raw)} {h : Heap} (wf : WF h) (hv : ∀ v, Occurs v (.map m) → Valid h v)
    (hp : ∀ v b, Occurs v (.map m) → RefV v b → P b) : Built P h (newXDataset h m).1 := by
  have := (buildVal_built P (.map m) h wf hv hp).1
  simpa only [buildVal, newXDataset] using this

/-! ## Content -/

theorem Mirrors.grow {h h' : Heap} (g : Grows h h') {r : Raw} {v : Val} (m : Mirrors h r v) : Mirrors h' r v := by
  induction m with
  | val => exact .val
  | map ho hk _ ih => exact .map (g.get ho) hk ih
  | maps ho hl _ ih => exact .maps (g.get ho) hl ih
  | anys _ ih => exact .anys ih

/-- What the loop of NewXDataset over a source map sets. -/
structure Sets (h' : Heap) (m : List (Str × Raw)) (acc acc' : AMap Val) : Prop where
  set : ∀ k r, (k, r) ∈ m → ∃ v, acc'.get k = some v ∧ Mirrors h' r v
  keep : ∀ k, (∀ r, (k, r) ∉ m) → acc'.get k = acc.get k

theorem Sets.mirrors {h' : Heap} {m : List (Str × Raw)} {m' : AMap Val} (s : Sets h' m [] m') {a : Addr} (ho : h'[a]? = some (.ds m')) :
    Mirrors h' (.map m) (.ptr a) := by
  refine .map ho ?_ ?_
  · intro k
    constructor
    · rintro ⟨r, hr⟩; obtain ⟨v, hv, _⟩ := s.set k r hr; exact ⟨v, hv⟩
    · rintro ⟨v, hv⟩
      by_cases hc : ∃ r, (k, r) ∈ m
      · exact hc
      · rw [s.keep k fun r hr => hc ⟨r, hr⟩] at hv; simp at hv
  · intro k r v hr hv
    obtain ⟨v', hv', hm⟩ := s.set k r hr
    rw [hv] at hv'; cases hv'; exact hm

theorem Sets.grow {h h' : Heap} (g : Grows h h') {m : List (Str × Raw)} {acc acc' : AMap Val} (s : Sets h m acc acc') : Sets h' m acc acc' :=
  ⟨fun k r hk => by obtain ⟨v, h1, h2⟩ := s.set k r hk; exact ⟨v, h1, h2.grow g⟩, s.keep⟩

theorem GoValue.map_nodup {m : List (Str × Raw)} (g : GoValue (.map m)) : (m.map Prod.fst).Nodup := by cases g; assumption
theorem GoValue.map_mem {m : List (Str × Raw)} (g : GoValue (.map m)) {k : Str} {r : Raw} (h : (k, r) ∈ m) : GoValue r := by
  cases g with | map _ hm => exact hm k r h
theorem GoValue.anys_mem {l : List Raw} (g : GoValue (.anys l)) {r : Raw} (h : r ∈ l) : GoValue r := by
  cases g with | anys hm => exact hm r h
theorem GoValue.maps_mem {l : List (List (Str × Raw))} (g : GoValue (.maps l)) {m : List (Str × Raw)} (h : m ∈ l) : GoValue (.map m) := by
  cases g with | maps hm => exact hm m h

/-- Elements of a built collection. -/
def ItemsMirror (h' : Heap) (l : List (List (Str × Raw))) (es : List (Option Addr)) : Prop :=
  es.length = l.length ∧ ∀ (i : Nat) (m : List (Str × Raw)) (e : Option Addr), l[i]? = some m → es[i]? = some e → Mirrors h' (.map m) (asVal e)

mutual
theorem buildVal_mirrors : ∀ (r : Raw) (h : Heap), GoValue r →
    Grows h (buildVal h r).1 ∧ Mirrors (buildVal h r).1 r (buildVal h r).2
  | .val v, h, _ => by simp only [buildVal]; exact ⟨.refl h, .val⟩
  | .map m, h, g => by
    simp only [buildVal]
    obtain ⟨h1, h2⟩ := buildEntries_mirrors m h [] g.map_nodup (fun k r hk => g.map_mem hk)
    exact ⟨h1.trans (grows_append _ _), (h2.grow (grows_append _ _)).mirrors (by simp)⟩
  | .anys l, h, g => by
    simp only [buildVal]
    obtain ⟨h1, h2⟩ := buildAnys_mirrors l h (fun r hr => g.anys_mem hr)
    refine ⟨h1.trans (grows_append _ _), .anys (.maps (by simp) h2.1 fun i m e hm he => (h2.2 i m e hm he).grow (grows_append _ _))⟩
  | .maps l, h, g => by
    simp only [buildVal]
    obtain ⟨h1, h2⟩ := buildMaps_mirrors l h (fun r hr => g.maps_mem hr)
    refine ⟨h1.trans (grows_append _ _), .maps (by simp) h2.1 fun i m e hm he => (h2.2 i m e hm he).grow (grows_append _ _)⟩

theorem buildEntries_mirrors : ∀ (m : List (Str × Raw)) (h : Heap) (acc : AMap Val), (m.map Prod.fst).Nodup → (∀ k r, (k, r) ∈ m → GoValue r) →
    Grows h (buildEntries h m acc).1 ∧ Sets (buildEntries h m acc).1 m acc (buildEntries h m acc).2
  | [], h, acc, _, _ => by simp only [buildEntries]; exact ⟨.refl h, by simp, by simp⟩
  | (k, r) :: m, h, acc, hn, hg => by
    simp only [buildEntries]
    simp only [List.map_cons, List.nodup_cons] at hn
    obtain ⟨h1, h2⟩ := buildVal_mirrors r h (hg k r (by simp))
    obtain ⟨h3, h4⟩ := buildEntries_mirrors m (buildVal h r).1 (acc.set k (buildVal h r).2) hn.2 (fun k r hk => hg k r (by simp [hk]))
    have hk : ∀ r', (k, r') ∉ m := fun r' hr' => hn.1 (List.mem_map.2 ⟨_, hr', rfl⟩)
    refine ⟨h1.trans h3, ?_, ?_⟩
    · intro k' r' hkr
      rcases List.mem_cons.1 hkr with e | e
      · cases e
        exact ⟨_, by rw [h4.keep k hk, AMap.get_set_self], h2.grow h3⟩
      · exact h4.set k' r' e
    · intro k' hk'
      rw [h4.keep k' fun r' hr' => hk' r' (by simp [hr'])]
      apply AMap.get_set_ne
      rintro rfl
      exact hk' r (by simp)

theorem buildAnys_mirrors : ∀ (l : List Raw) (h : Heap), (∀ r ∈ l, GoValue r) →
    Grows h (buildAnys h l).1 ∧ ItemsMirror (buildAnys h l).1 (onlyMaps l) (buildAnys h l).2
  | [], h, _ => by simp only [buildAnys, onlyMaps]; exact ⟨.refl h, rfl, by simp⟩
  | .map m :: l, h, hg => by
    simp only [buildAnys, onlyMaps]
    have gm := hg (.map m) (by simp)
    obtain ⟨h1, h2⟩ := buildEntries_mirrors m h [] gm.map_nodup (fun k r hk => gm.map_mem hk)
    obtain ⟨h3, h4⟩ := buildAnys_mirrors l ((buildEntries h m []).1 ++ [.ds (buildEntries h m []).2]) (fun r hr => hg r (by simp [hr]))
    have hgr := (grows_append (buildEntries h m []).1 [.ds (buildEntries h m []).2]).trans h3
    refine ⟨h1.trans hgr, by simp [h4.1], ?_⟩
    intro i m' e hm' he
    cases i with
    | zero =>
      simp at hm' he; subst hm'; subst he
      exact (h2.grow hgr).mirrors (h3.get (by simp))
    | succ i => simp only [List.getElem?_cons_succ] at hm' he; exact h4.2 i m' e hm' he
  | .val v :: l, h, hg => by simp only [buildAnys, onlyMaps]; exact buildAnys_mirrors l h (fun r hr => hg r (by simp [hr]))
  | .anys _ :: l, h, hg => by simp only [buildAnys, onlyMaps]; exact buildAnys_mirrors l h (fun r hr => hg r (by simp [hr]))
  | .maps _ :: l, h, hg => by simp only [buildAnys, onlyMaps]; exact buildAnys_mirrors l h (fun r hr => hg r (by simp [hr]))

theorem buildMaps_mirrors : ∀ (l : List (List (Str × Raw))) (h : Heap), (∀ m ∈ l, GoValue (.map m)) →
    Grows h (buildMaps h l).1 ∧ ItemsMirror (buildMaps h l).1 l (buildMaps h l).2
  | [], h, _ => by simp only [buildMaps]; exact ⟨.refl h, rfl, by simp⟩
  | m :: l, h, hg => by
    simp only [buildMaps]
    have gm := hg m (by simp)
    obtain ⟨h1, h2⟩ := buildEntries_mirrors m h [] gm.map_nodup (fun k r hk => gm.map_mem hk)
    obtain ⟨h3, h4⟩ := buildMaps_mirrors l ((buildEntries h m []).1 ++ [.ds (buildEntries h m []).2]) (fun r hr => hg r (by simp [hr]))
    have hgr := (grows_append (buildEntries h m []).1 [.ds (buildEntries h m []).2]).trans h3
    refine ⟨h1.trans hgr, by simp [h4.1], ?_⟩
    intro i m' e hm' he
    cases i with
    | zero =>
      simp at hm' he; subst hm'; subst he
      exact (h2.grow hgr).mirrors (h3.get (by simp))
    | succ i => simp only [List.getElem?_cons_succ] at hm' he; exact h4.2 i m' e hm' he
end

end Xcore.Dataset
