import Verif.Proof.Page
import Verif.Proof.DatasetBuild

/-!
# What NewXDataset builds has the content of the Go literal
-/

namespace Xcore.Page

open Xcore.Dataset Xcore.Template

theorem grows_wraps {h h' : Heap} (g : Grows h h') {a t : Nat} (w : Wraps h a t) : Wraps h' a t := by
  induction w with
  | plain hm => exact .plain (g.get hm)
  | wrapper hb _ ih => exact .wrapper (g.get hb) ih

theorem Holds.grow {pos pos' : Nat → Option Nat} {h h' : Heap} (g : Grows h h') (hp : ∀ b, b < h.length → pos' b = pos b) {v : Val} {d : Data} {pl : Option Nat}
    (o : Holds h pos v d pl) : Holds h' pos' v d pl := by
  induction o with
  | scalar hs => exact .scalar hs
  | table e => exact .table (g.get e)
  | @record a t m fs val w hm hc hf hall _ ih =>
    rw [← hp t (lt_of_getElem? hm)]
    exact .record (val := val) (grows_wraps g w) (g.get hm) (by rw [hp t (lt_of_getElem? hm)]; exact hc) hf hall ih
  | rows hc hl hr _ ih =>
    refine .rows ?_ hl hr ih
    rcases hc with hc | hc
    · exact Or.inl (g.get hc)
    · exact Or.inr (g.get hc)

/-- The result of building: memory has grown, and there are the rows that were. -/
structure Grown (h h' : Heap) (pos pos' : Nat → Option Nat) : Prop where
  grows : Grows h h'
  same : ∀ b, b < h.length → pos' b = pos b
  wrapped : Wrapped h → Wrapped h'

theorem Grown.refl (h : Heap) (pos : Nat → Option Nat) : Grown h h pos pos := ⟨.refl h, fun _ _ => rfl, id⟩

theorem Grown.trans {h1 h2 h3 : Heap} {p1 p2 p3 : Nat → Option Nat} (a : Grown h1 h2 p1 p2) (b : Grown h2 h3 p2 p3) : Grown h1 h3 p1 p3 :=
  ⟨a.grows.trans b.grows, fun c hc => (b.same c (Nat.lt_of_lt_of_le hc a.grows.length)).trans (a.same c hc), b.wrapped ∘ a.wrapped⟩

theorem Grown.snoc (h : Heap) (pos : Nat → Option Nat) (o : Obj) (ho : o ≠ .dsTS none) (pl : Option Nat) :
    Grown h (h ++ [o]) pos (fun b => if b = h.length then pl else pos b) := by
  refine ⟨grows_append _ _, fun b hb => if_neg (by omega), fun w a e => ?_⟩
  rw [List.getElem?_append] at e
  split at e
  · exact w a e
  · rename_i hlt
    cases ha : a - h.length with
    | zero => rw [ha] at e; simp at e; exact ho e
    | succ k => rw [ha] at e; simp at e

/-- Building the Go value gives the content, at any place. -/
def Builds (h0 : Heap) (r : Raw) (d : Data) : Prop :=
  ∀ (h : Heap) (pos : Nat → Option Nat) (pl : Option Nat), Grows h0 h → ∃ pos', Grown h (buildVal h r).1 pos pos' ∧
    Holds (buildVal h r).1 pos' (buildVal h r).2 d pl

theorem entries_build {h0 : Heap} : ∀ {m : List (Str × Raw)} {fs : Fields} {h : Heap} (pos : Nat → Option Nat) (acc : AMap Val), Grows h0 h →
    (m.map Prod.fst).Nodup → fs.map Prod.fst = m.map Prod.fst →
    (∀ (i : Nat) (k k' : Str) (r : Raw) (d : Data), m[i]? = some (k, r) → fs[i]? = some (k', d) → Builds h0 r d) →
    ∃ pos', Grown h (buildEntries h m acc).1 pos pos' ∧
      (∀ k d, (k, d) ∈ fs → ∃ v, (buildEntries h m acc).2.get k = some v ∧ Holds (buildEntries h m acc).1 pos' v d none) ∧
      ∀ k, k ∉ fs.map Prod.fst → (buildEntries h m acc).2.get k = acc.get k := by
  intro m
  induction m with
  | nil =>
    intro fs h pos acc g hn hk hb
    cases fs with
    | nil => exact ⟨pos, .refl h pos, by simp, fun _ _ => rfl⟩
    | cons => simp at hk
  | cons p m ih =>
    intro fs h pos acc g hn hk hb
    obtain ⟨k, r⟩ := p
    cases fs with
    | nil => simp at hk
    | cons q fs =>
      obtain ⟨k', d⟩ := q
      simp only [List.map_cons, List.cons.injEq] at hk
      obtain ⟨rfl, hk⟩ := hk
      simp only [List.map_cons, List.nodup_cons] at hn
      obtain ⟨p1, g1, o1⟩ := hb 0 k' k' r d rfl rfl h pos none g
      obtain ⟨p2, g2, s2, e2⟩ := ih (fs := fs) p1 (acc.set k' (buildVal h r).2) (g.trans g1.grows) hn.2 hk
        (fun i k k' r d hm hf => hb (i + 1) k k' r d (by simpa using hm) (by simpa using hf))
      have hk' : k' ∉ fs.map Prod.fst := by rw [hk]; exact hn.1
      simp only [buildEntries]
      refine ⟨p2, g1.trans g2, ?_, ?_⟩
      · intro k d' hkd
        rcases List.mem_cons.1 hkd with e | e
        · cases e
          exact ⟨_, by rw [e2 _ hk', AMap.get_set_self], o1.grow g2.grows g2.same⟩
        · exact s2 k d' e
      · intro k hk2
        simp only [List.map_cons, List.mem_cons, not_or] at hk2
        rw [e2 k hk2.2]
        exact AMap.get_set_ne _ _ hk2.1

theorem map_builds {h0 : Heap} {m : List (Str × Raw)} {fs : Fields} (hn : (m.map Prod.fst).Nodup)
    (hkeys : ∀ k ∈ m.map Prod.fst, k ≠ b!".counter" ∧ 62 ∉ k) (hk : fs.map Prod.fst = m.map Prod.fst)
    (hb : ∀ (i : Nat) (k k' : Str) (r : Raw) (d : Data), m[i]? = some (k, r) → fs[i]? = some (k', d) → Builds h0 r d) :
    Builds h0 (.map m) (.record fs) := by
  intro h pos pl g
  obtain ⟨p1, g1, s1, e1⟩ := entries_build pos [] g hn hk hb
  simp only [buildVal]
  have gs := Grown.snoc (buildEntries h m []).1 p1 (.ds (buildEntries h m []).2) (by simp) pl
  refine ⟨_, g1.trans gs, ?_⟩
  have hget : ((buildEntries h m []).1 ++ [Obj.ds (buildEntries h m []).2])[(buildEntries h m []).1.length]? = some (.ds (buildEntries h m []).2) := by simp
  have hmem : ∀ k d, (k, d) ∈ fs → k ∈ m.map Prod.fst := fun k d hd => by rw [← hk]; exact List.mem_map.2 ⟨_, hd, rfl⟩
  have hc : (buildEntries h m []).2.get b!".counter" = none := by
    rw [e1 b!".counter" (fun q => (hkeys _ (by rw [← hk]; exact q)).1 rfl)]; rfl
  have := Holds.record (h := (buildEntries h m []).1 ++ [Obj.ds (buildEntries h m []).2])
    (pos := fun b => if b = (buildEntries h m []).1.length then pl else p1 b) (fs := fs)
    (val := fun k => ((buildEntries h m []).2.get k).getD .nil) (.plain hget) hget (Or.inl hc)
    (fun k d hd => ⟨(hkeys k (hmem k d hd)).1, (hkeys k (hmem k d hd)).2, by obtain ⟨v, hv, _⟩ := s1 k d hd; rw [hv]; rfl⟩)
    (fun k _ hne => by
      by_cases hin : k ∈ fs.map Prod.fst
      · obtain ⟨⟨k', d⟩, hd, rfl⟩ := List.mem_map.1 hin; exact ⟨d, hd⟩
      · rw [e1 k hin] at hne; exact absurd rfl hne)
    (fun k d hd => by
      obtain ⟨v, hv, o⟩ := s1 k d hd
      rw [hv]
      exact o.grow gs.grows gs.same)
  simpa using this

theorem maps_build {h0 : Heap} : ∀ {l : List (List (Str × Raw))} {rs : List Fields} {h : Heap} (pos : Nat → Option Nat) (i : Nat), Grows h0 h →
    rs.length = l.length → (∀ (j : Nat) (m : List (Str × Raw)) (fs : Fields), l[j]? = some m → rs[j]? = some fs → Builds h0 (.map m) (.record fs)) →
    ∃ pos', Grown h (buildMaps h l).1 pos pos' ∧ (buildMaps h l).2.length = rs.length ∧
      ∀ (j : Nat) (fs : Fields), rs[j]? = some fs → ∃ a, (buildMaps h l).2[j]? = some (some a) ∧ Holds (buildMaps h l).1 pos' (.ptr a) (.record fs) (some (i + j)) := by
  intro l
  induction l with
  | nil =>
    intro rs h pos i g hl hb
    cases rs with
    | nil => exact ⟨pos, .refl h pos, rfl, by simp⟩
    | cons => simp at hl
  | cons m l ih =>
    intro rs h pos i g hl hb
    cases rs with
    | nil => simp at hl
    | cons fs rs =>
      obtain ⟨p1, g1, o1⟩ := hb 0 m fs rfl rfl h pos (some i) g
      obtain ⟨p2, g2, l2, o2⟩ := ih (rs := rs) p1 (i + 1) (g.trans g1.grows) (by simpa using hl)
        (fun j m fs hm hf => hb (j + 1) m fs (by simpa using hm) (by simpa using hf))
      simp only [buildMaps]
      refine ⟨p2, g1.trans g2, by simpa [buildVal] using l2, ?_⟩
      intro j fs' hj
      cases j with
      | zero =>
        simp only [List.getElem?_cons_zero, Option.some.injEq] at hj
        subst hj
        exact ⟨_, rfl, o1.grow g2.grows g2.same⟩
      | succ j =>
        obtain ⟨a, ha, oa⟩ := o2 j fs' (by simpa using hj)
        refine ⟨a, by simpa [buildVal] using ha, ?_⟩
        rw [show i + (j + 1) = i + 1 + j by omega]
        exact oa

theorem rows_of_maps {h0 h : Heap} {l : List (List (Str × Raw))} {rs : List Fields} (pos : Nat → Option Nat) (pl : Option Nat) (g : Grows h0 h)
    (hl : rs.length = l.length) (hb : ∀ (j : Nat) (m : List (Str × Raw)) (fs : Fields), l[j]? = some m → rs[j]? = some fs → Builds h0 (.map m) (.record fs)) :
    ∃ pos', Grown h ((buildMaps h l).1 ++ [.col (buildMaps h l).2]) pos pos' ∧
      Holds ((buildMaps h l).1 ++ [.col (buildMaps h l).2]) pos' (.ptr (buildMaps h l).1.length) (.rows rs) pl := by
  obtain ⟨p1, g1, l1, o1⟩ := maps_build pos 0 g hl hb
  have gs := Grown.snoc (buildMaps h l).1 p1 (.col (buildMaps h l).2) (by simp) none
  refine ⟨_, g1.trans gs, ?_⟩
  refine .rows (row := fun i => (((buildMaps h l).2[i]?).getD none).getD 0) (Or.inl (by simp)) l1 ?_ ?_
  · intro i hi
    obtain ⟨a, ha, _⟩ := o1 i _ (List.getElem?_eq_getElem hi)
    rw [ha]; rfl
  · intro i fs hf
    obtain ⟨a, ha, oa⟩ := o1 i fs hf
    rw [ha]
    rw [Nat.zero_add] at oa
    exact oa.grow gs.grows gs.same

theorem buildAnys_eq (l : List Raw) : ∀ h, buildAnys h l = buildMaps h (onlyMaps l) := by
  induction l with
  | nil => intro h; rfl
  | cons r l ih =>
    intro h
    cases r with
    | map m => simp only [buildAnys, onlyMaps, buildMaps, ih]
    | _ => simp only [buildAnys, onlyMaps, ih]

theorem literal_builds {h0 : Heap} {r : Raw} {d : Data} (lit : Literal h0 r d) : Builds h0 r d := by
  suffices H : Builds h0 r d ∧ ∀ (l : List (List (Str × Raw))) (rs : List Fields), r = .maps l → d = .rows rs →
      rs.length = l.length ∧ ∀ (j : Nat) (m : List (Str × Raw)) (fs : Fields), l[j]? = some m → rs[j]? = some fs → Builds h0 (.map m) (.record fs) from H.1
  induction lit with
  | scalar hs => exact ⟨fun h pos pl g => ⟨pos, .refl h pos, .scalar hs⟩, by simp⟩
  | table e => exact ⟨fun h pos pl g => ⟨pos, .refl h pos, .table (g.get e)⟩, by simp⟩
  | map hn hkeys hk _ ih => exact ⟨map_builds hn hkeys hk fun i k k' r d h1 h2 => (ih i k k' r d h1 h2).1, by simp⟩
  | maps hl _ ih =>
    refine ⟨fun h pos pl g => ?_, ?_⟩
    · simp only [buildVal]
      exact rows_of_maps pos pl g hl fun j m fs h1 h2 => (ih j m fs h1 h2).1
    · rintro l rs ⟨⟩ ⟨⟩
      exact ⟨hl, fun j m fs h1 h2 => (ih j m fs h1 h2).1⟩
  | anys _ ih =>
    refine ⟨fun h pos pl g => ?_, by simp⟩
    obtain ⟨hl, hb⟩ := ih.2 _ _ rfl rfl
    simp only [buildVal, buildAnys_eq]
    exact rows_of_maps pos pl g hl hb

theorem new_holds {h : Heap} {m : List (Str × Raw)} {fs : Fields} (lit : Literal h (.map m) (.record fs)) :
    ∃ pos, Holds (newXDataset h m).1 pos (.ptr (newXDataset h m).2) (.record fs) none ∧ (Wrapped h → Wrapped (newXDataset h m).1) := by
  obtain ⟨pos, g, o⟩ := literal_builds lit h (fun _ => none) none (.refl h)
  exact ⟨pos, o, g.wrapped⟩

/-! ## Literals by their parts -/

theorem literal_nil {h : Heap} : Literal h (.map []) (.record []) := .map (by simp) (by simp) rfl (by simp)

theorem literal_field {h : Heap} {k : Str} {r : Raw} {d : Data} {m : List (Str × Raw)} {fs : Fields}
    (hk : decide (k ∉ m.map Prod.fst ∧ k ≠ b!".counter" ∧ 62 ∉ k) = true) (lr : Literal h r d) (lm : Literal h (.map m) (.record fs)) :
    Literal h (.map ((k, r) :: m)) (.record ((k, d) :: fs)) := by
  obtain ⟨h1, h2, h3⟩ := of_decide_eq_true hk
  cases lm with
  | map hn hkeys hks hl =>
    refine .map (by simp only [List.map_cons, List.nodup_cons]; exact ⟨h1, hn⟩) ?_ (by simp [hks]) ?_
    · intro k' hk'
      rcases List.mem_cons.1 hk' with rfl | hk'
      · exact ⟨h2, h3⟩
      · exact hkeys k' hk'
    · intro i k1 k2 r' d' e1 e2
      cases i with
      | zero => cases e1; cases e2; exact lr
      | succ i => exact hl i k1 k2 r' d' (by simpa using e1) (by simpa using e2)

theorem literal_noRows {h : Heap} : Literal h (.maps []) (.rows []) := .maps rfl (by simp)

theorem literal_row {h : Heap} {m : List (Str × Raw)} {fs : Fields} {l : List (List (Str × Raw))} {rs : List Fields} (lm : Literal h (.map m) (.record fs))
    (ll : Literal h (.maps l) (.rows rs)) : Literal h (.maps (m :: l)) (.rows (fs :: rs)) := by
  cases ll with
  | maps hl hb =>
    refine .maps (by simp [hl]) ?_
    intro i m' fs' e1 e2
    cases i with
    | zero => cases e1; cases e2; exact lm
    | succ i => exact hb i m' fs' (by simpa using e1) (by simpa using e2)

/-- All values in it are valid. -/
def Values (h : Heap) (r : Raw) : Prop := ∀ v, Occurs v r → Valid h v

theorem values_val {h : Heap} {v : Val} (hv : Valid h v) : Values h (.val v) := by
  intro w o; cases o; exact hv

theorem values_nil {h : Heap} : Values h (.map []) := by
  intro w o; cases o with | map hm _ => simp at hm

theorem values_field {h : Heap} {k : Str} {r : Raw} {m : List (Str × Raw)} (hr : Values h r) (hm : Values h (.map m)) : Values h (.map ((k, r) :: m)) := by
  intro w o
  cases o with
  | map hk ho =>
    rcases List.mem_cons.1 hk with e | hk
    · cases e; exact hr w ho
    · exact hm w (.map hk ho)

theorem values_noRows {h : Heap} : Values h (.maps []) := by
  intro w o; cases o with | maps hm _ _ => simp at hm

theorem values_row {h : Heap} {m : List (Str × Raw)} {l : List (List (Str × Raw))} (hm : Values h (.map m)) (hl : Values h (.maps l)) : Values h (.maps (m :: l)) := by
  intro w o
  cases o with
  | maps h1 h2 ho =>
    rcases List.mem_cons.1 h1 with e | h1
    · subst e; exact hm w (.map h2 ho)
    · exact hl w (.maps h1 h2 ho)

theorem short_of {h : Heap} (e : (h.all fun o => match o with | .col l | .colTS l => decide (l.length < 2 ^ 63) | _ => true) = true) : Short h := by
  intro c l hc
  rw [List.all_eq_true] at e
  rcases hc with q | q
  · have := e _ (List.mem_of_getElem? q); simp only [decide_eq_true_eq] at this; omega
  · have := e _ (List.mem_of_getElem? q); simp only [decide_eq_true_eq] at this; omega

/-! ## The bound on the depth -/

theorem execute_more {x : Ext} {th : THeap} {t : Nat} {h : Heap} {data : Option Nat} {n m : Nat} (hn : n ≤ m) {r : Heap × Str}
    (e : execute x th n t h data = .ok r) : execute x th m t h data = .ok r := by
  cases data with
  | none =>
    rcases injector_mono x th none hn t ⟨h, none⟩ with q | q
    · simp only [execute, q] at e; cases e
    · simp only [execute, q] at e ⊢; exact e
  | some a =>
    simp only [execute] at e ⊢
    cases hg : Dataset.get h a b!"#" with
    | ok l =>
      rw [hg] at e
      simp only [Res.bind_ok] at e ⊢
      rcases injector_mono x th (Template.langOf h l) hn t ⟨h, some [some a]⟩ with q | q
      · rw [q] at e; cases e
      · rw [q] at e; exact e
    | panic => rw [hg] at e; cases e
    | diverge => rw [hg] at e; cases e

end Xcore.Page
