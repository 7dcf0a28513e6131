import Verif.Proof.Language
import Verif.Spec.Page
import Verif.Proof.TemplateAgain
import Verif.Proof.DatasetPrintTotal

/-!
# The page without memory is the page of the code
-/

namespace Xcore.Page

open Xcore.Dataset Xcore.Template

/-! ## Memory during rendering -/

/-- Memory is the same, but for rows that have got their number as counter. -/
structure Kept (pos : Nat → Option Nat) (h h' : Heap) : Prop where
  length : h'.length = h.length
  objects : ∀ b : Nat, h'[b]? = h[b]? ∨ ∃ m m' i, h[b]? = some (.ds m) ∧ h'[b]? = some (.ds m') ∧ (∀ k, k ≠ b!".counter" → m'.get k = m.get k) ∧
    m'.get b!".counter" = some (.int .int ((i : Nat) + 1)) ∧ pos b = some i

variable {pos : Nat → Option Nat} {h h' h'' : Heap} {x : Ext}

theorem Kept.refl (h : Heap) : Kept pos h h := ⟨rfl, fun _ => Or.inl rfl⟩

theorem Kept.trans (a : Kept pos h h') (b : Kept pos h' h'') : Kept pos h h'' := by
  refine ⟨b.length.trans a.length, fun k => ?_⟩
  rcases b.objects k with e | ⟨m2, m3, i, e2, e3, hk, hi, hp⟩
  · rw [e]; exact a.objects k
  · rcases a.objects k with e | ⟨m1, m2', _, e1, e2', hk', _, _⟩
    · exact Or.inr ⟨m2, m3, i, by rw [← e]; exact e2, e3, hk, hi, hp⟩
    · rw [e2] at e2'
      cases e2'
      exact Or.inr ⟨m1, m3, i, e1, e3, fun k hne => (hk k hne).trans (hk' k hne), hi, hp⟩

theorem Kept.other (s : Kept pos h h') {b : Nat} {o : Obj} (ho : ∀ m, o ≠ .ds m) (e : h[b]? = some o) : h'[b]? = some o := by
  rcases s.objects b with q | ⟨m, m', i, e1, e2, _⟩
  · rw [q]; exact e
  · rw [e1] at e; cases e; exact absurd rfl (ho m)

theorem Kept.ds (s : Kept pos h h') {b : Nat} {m : AMap Val} (e : h[b]? = some (.ds m)) : ∃ m', h'[b]? = some (.ds m') ∧
    (∀ k, k ≠ b!".counter" → m'.get k = m.get k) ∧
    (m'.get b!".counter" = m.get b!".counter" ∨ ∃ i : Nat, pos b = some i ∧ m'.get b!".counter" = some (.int .int ((i : Nat) + 1))) := by
  rcases s.objects b with q | ⟨m0, m', i, e1, e2, hk, hi, hp⟩
  · exact ⟨m, by rw [q]; exact e, fun _ _ => rfl, Or.inl rfl⟩
  · rw [e1] at e; cases e
    exact ⟨m', e2, hk, Or.inr ⟨i, hp, hi⟩⟩

theorem Kept.wraps (s : Kept pos h h') {a t : Nat} (w : Wraps h a t) : Wraps h' a t := by
  induction w with
  | plain hm => obtain ⟨m', e, _⟩ := s.ds hm; exact .plain e
  | wrapper hb _ ih => exact .wrapper (s.other (by simp) hb) ih

theorem Kept.isCollection (s : Kept pos h h') {c : Nat} {l : List (Option Nat)} (w : IsCollection h c l) : IsCollection h' c l := by
  rcases w with w | w
  · exact Or.inl (s.other (by simp) w)
  · exact Or.inr (s.other (by simp) w)

theorem Holds.kept (s : Kept pos h h') {v : Val} {d : Data} {pl : Option Nat} (o : Holds h pos v d pl) : Holds h' pos v d pl := by
  induction o with
  | scalar hs => exact .scalar hs
  | table e => exact .table (s.other (by simp) e)
  | @record a t m fs val w hm hc hf hall _ ih =>
    obtain ⟨m', e, hk, hi⟩ := s.ds hm
    refine .record (val := val) (s.wraps w) e ?_ ?_ ?_ ih
    · rcases hi with hi | ⟨i, hp, hi⟩
      · unfold CounterFits; rw [hi]; exact hc
      · exact Or.inr ⟨by rw [hp]; simp, _, hi⟩
    · intro k d hkd
      obtain ⟨h1, h2, h3⟩ := hf k d hkd
      exact ⟨h1, h2, by rw [hk k h1]; exact h3⟩
    · intro k h1 h2
      rw [hk k h1] at h2
      exact hall k h1 h2
  | rows hc hl hr _ ih => exact .rows (s.isCollection hc) hl hr ih

/-! ## Kinds of data -/

theorem holds_record {a : Nat} {fs : Fields} {pl : Option Nat} (o : Holds h pos (.ptr a) (.record fs) pl) : ∃ (t : Nat) (m : AMap Val) (val : Str → Val), Wraps h a t ∧ h[t]? = some (.ds m) ∧
    CounterFits (pos t) m ∧ (∀ k d, (k, d) ∈ fs → k ≠ b!".counter" ∧ 62 ∉ k ∧ m.get k = some (val k)) ∧
    (∀ k, k ≠ b!".counter" → m.get k ≠ none → ∃ d, (k, d) ∈ fs) ∧ (∀ k d, (k, d) ∈ fs → Holds h pos (val k) d none) ∧ pl = pos t := by
  cases o with
  | record w hm hc hf hall hv => exact ⟨_, _, _, w, hm, hc, hf, hall, hv, rfl⟩

theorem holds_isDataset {v : Val} {fs : Fields} {pl : Option Nat} (o : Holds h pos v (.record fs) pl) : ∃ a, v = .ptr a ∧ IsDataset h a := by
  cases o with
  | record w hm hc hf hall hv => exact ⟨_, rfl, wraps_isDataset w⟩

theorem holds_not_dataset {v : Val} {d : Data} {pl : Option Nat} (o : Holds h pos v d pl) (hd : ∀ fs, d ≠ .record fs) : ∀ a, v = .ptr a → ¬ IsDataset h a := by
  cases o with
  | scalar hs => rintro a rfl; exact absurd hs (by simp [Single])
  | table e =>
    rintro a ⟨⟩ (⟨m, q⟩ | ⟨i, q⟩) <;> rw [e] at q <;> cases q
  | record => exact absurd rfl (hd _)
  | rows hc =>
    rintro a ⟨⟩ (⟨m, q⟩ | ⟨i, q⟩) <;> rcases hc with hc | hc <;> rw [hc] at q <;> cases q

theorem holds_not_collection {v : Val} {d : Data} {pl : Option Nat} (o : Holds h pos v d pl) (hd : ∀ rs, d ≠ .rows rs) : ∀ c l, v = .ptr c → ¬ IsCollection h c l := by
  cases o with
  | scalar hs => rintro a l rfl; exact absurd hs (by simp [Single])
  | table e =>
    rintro a l ⟨⟩ (q | q) <;> rw [e] at q <;> cases q
  | record w =>
    rintro a l ⟨⟩ q
    rcases wraps_isDataset w with ⟨m, e⟩ | ⟨i, e⟩ <;> rcases q with q | q <;> rw [e] at q <;> cases q
  | rows => exact absurd rfl (hd _)

theorem holds_plain {v : Val} {d : Data} {pl : Option Nat} (o : Holds h pos v d pl) (hd : ∀ fs, d ≠ .record fs) (hr : ∀ rs, d ≠ .rows rs) : Plain h v :=
  fun a e => ⟨holds_not_dataset o hd a e, fun l => holds_not_collection o hr a l e⟩

theorem isCollection_unique {c : Nat} {l l' : List (Option Nat)} (a : IsCollection h c l) (b : IsCollection h c l') : l = l' := by
  rcases a with a | a <;> rcases b with b | b <;> rw [a] at b <;> cases b <;> rfl

/-! ## Lookups -/

theorem lookup_mem {fs : Fields} {k : Str} {d : Data} (e : fs.lookup k = some d) : (k, d) ∈ fs := by
  induction fs with
  | nil => cases e
  | cons p fs ih =>
    obtain ⟨q, c⟩ := p
    rw [List.lookup_cons] at e
    by_cases hk : k = q
    · subst hk
      simp only [beq_self_eq_true] at e
      cases e
      exact List.mem_cons_self
    · rw [show (k == q) = false from by simp [hk]] at e
      exact List.mem_cons_of_mem _ (ih e)

theorem lookup_none {fs : Fields} {k : Str} (e : fs.lookup k = none) : ∀ d, (k, d) ∉ fs := by
  induction fs with
  | nil => intro d hd; cases hd
  | cons p fs ih =>
    obtain ⟨q, c⟩ := p
    rw [List.lookup_cons] at e
    by_cases hk : k = q
    · subst hk
      simp only [beq_self_eq_true] at e
      cases e
    · rw [show (k == q) = false from by simp [hk]] at e
      intro d hd
      rcases List.mem_cons.1 hd with r | r
      · cases r; exact hk rfl
      · exact ih e d r

theorem holds_entry {a : Nat} {fs : Fields} {pl : Option Nat} (o : Holds h pos (.ptr a) (.record fs) pl) {k : Str} {v : Val} (hk : k ≠ b!".counter")
    (e : Entry h a k v) : ∃ d, fs.lookup k = some d ∧ Holds h pos v d none := by
  obtain ⟨t, m, val, w, hm, _, hf, hall, hv, _⟩ := holds_record o
  obtain ⟨t', m', w', hm', hg⟩ := e
  cases wraps_unique w w'
  rw [hm] at hm'; cases hm'
  cases hl : fs.lookup k with
  | none =>
    obtain ⟨d, hd⟩ := hall k hk (by rw [hg]; simp)
    exact absurd hd (lookup_none hl d)
  | some d =>
    have hd := lookup_mem hl
    have := (hf k d hd).2.2
    rw [hg] at this
    cases this
    exact ⟨d, rfl, hv k d hd⟩

theorem entry_of_lookup {a : Nat} {fs : Fields} {pl : Option Nat} (o : Holds h pos (.ptr a) (.record fs) pl) {k : Str} {d : Data}
    (e : fs.lookup k = some d) : ∃ v, Entry h a k v ∧ Holds h pos v d none := by
  obtain ⟨t, m, val, w, hm, _, hf, hall, hv, _⟩ := holds_record o
  have hd := lookup_mem e
  exact ⟨val k, ⟨t, m, w, hm, (hf k d hd).2.2⟩, hv k d hd⟩

theorem no_literal {a : Nat} {fs : Fields} {pl : Option Nat} (o : Holds h pos (.ptr a) (.record fs) pl) {s s2 : Str} {rest : List Str} {v : Val} :
    ¬ Entry h a (join b!">" (s :: s2 :: rest)) v := by
  intro e
  have h62 : (62 : UInt8) ∈ join b!">" (s :: s2 :: rest) := by simp [join]
  have hne : join b!">" (s :: s2 :: rest) ≠ b!".counter" := by
    intro q; rw [q] at h62; revert h62; decide
  obtain ⟨d, hl, _⟩ := holds_entry o hne e
  obtain ⟨_, _, _, _, _, _, hf, _⟩ := holds_record o
  exact (hf _ d (lookup_mem hl)).2.1 h62

/-- The place that belongs to the second part of an answer. -/
def Fits (row : Bool) (pl : Option Nat) : Prop := if row then ∃ i, pl = some i else pl = none

theorem leads_follow {a : Nat} {segs : List Str} {v : Val} (r : Leads h a segs v) : ∀ {fs : Fields} {pl : Option Nat}, Holds h pos (.ptr a) (.record fs) pl →
    b!".counter" ∉ segs → ∃ d row pl', follow fs segs = some (d, row) ∧ Holds h pos v d pl' ∧ Fits row pl' := by
  induction r with
  | entry e =>
    intro fs pl o hn
    simp only [List.mem_singleton] at hn
    obtain ⟨d, hl, hd⟩ := holds_entry o (fun q => hn q.symm) e
    exact ⟨d, false, none, by rw [follow, hl]; rfl, hd, rfl⟩
  | dataset e hb _ ih =>
    intro fs pl o hn
    simp only [List.mem_cons, not_or] at hn ih
    obtain ⟨d, hl, hd⟩ := holds_entry o (fun q => hn.1 q.symm) e
    cases d with
    | record gs =>
      rw [follow, hl]
      exact ih hd ⟨hn.2.1, hn.2.2⟩
    | _ => exact absurd hb (holds_not_dataset hd (by simp) _ rfl)
  | @element a c e' s s2 l i e hcl hi hl' =>
    intro fs pl o hn
    simp only [List.mem_cons, not_or] at hn
    obtain ⟨d, hl, hd⟩ := holds_entry o (fun q => hn.1 q.symm) e
    cases d with
    | rows rs =>
      cases hd with
      | rows hc hlen hr hv =>
        cases isCollection_unique hc hcl
        have hi' : i < rs.length := by rw [← hlen]; exact lt_of_getElem? hl'
        have hrow := hr i hi'
        rw [hl'] at hrow
        cases hrow
        have hg : rs[i]? = some rs[i] := List.getElem?_eq_getElem hi'
        refine ⟨.record rs[i], true, some i, ?_, hv i _ hg, ⟨i, rfl⟩⟩
        simp only [follow, hl, hi, hg]
    | _ => exact absurd hcl (holds_not_collection hd (by simp) _ _ rfl)
  | @through a c e' s s2 r rest l i v e hcl hi hl' _ ih =>
    intro fs pl o hn
    simp only [List.mem_cons, not_or] at hn ih
    obtain ⟨d, hl, hd⟩ := holds_entry o (fun q => hn.1 q.symm) e
    cases d with
    | rows rs =>
      cases hd with
      | rows hc hlen hr hv =>
        cases isCollection_unique hc hcl
        have hi' : i < rs.length := by rw [← hlen]; exact lt_of_getElem? hl'
        have hrow := hr i hi'
        rw [hl'] at hrow
        cases hrow
        have hg : rs[i]? = some rs[i] := List.getElem?_eq_getElem hi'
        obtain ⟨d, row, pl', h1, h2, h3⟩ := ih (hv i _ hg) ⟨hn.2.2.1, hn.2.2.2⟩
        refine ⟨d, row, pl', ?_, h2, h3⟩
        simp only [follow, hl, hi, hg]
        exact h1
    | _ => exact absurd hcl (holds_not_collection hd (by simp) _ _ rfl)
  | literal e hw e2 => intro fs pl o hn; exact absurd e2 (no_literal o)

theorem follow_leads : ∀ (n : Nat) {segs : List Str} {a : Nat} {fs : Fields} {pl : Option Nat} {d : Data} {row : Bool}, segs.length ≤ n →
    Holds h pos (.ptr a) (.record fs) pl → follow fs segs = some (d, row) → ∃ v, Leads h a segs v := by
  intro n
  induction n with
  | zero =>
    intro segs a fs pl d row hl _ e
    cases segs with
    | nil => cases e
    | cons => simp at hl
  | succ n ih =>
    intro segs a fs pl d row hl o e
    match segs, hl, e with
    | [k], _, e =>
      rw [follow] at e
      cases hk : fs.lookup k with
      | none => rw [hk] at e; cases e
      | some d' =>
        obtain ⟨v, hv, _⟩ := entry_of_lookup o hk
        exact ⟨v, .entry hv⟩
    | k :: k2 :: rest, hl, e =>
      cases hk : fs.lookup k with
      | none => simp only [follow, hk] at e; cases e
      | some d' =>
        obtain ⟨v, hv, hd⟩ := entry_of_lookup o hk
        cases d' with
        | scalar => simp only [follow, hk] at e; cases e
        | table => simp only [follow, hk] at e; cases e
        | record gs =>
          simp only [follow, hk] at e
          obtain ⟨b, rfl, hb⟩ := holds_isDataset hd
          obtain ⟨w, hw⟩ := ih (segs := k2 :: rest) (by simp at hl ⊢; omega) hd e
          exact ⟨w, .dataset hv hb hw⟩
        | rows rs =>
          cases hi : atoi k2 with
          | none => simp only [follow, hk, hi] at e; cases e
          | some j =>
            cases j with
            | negSucc j => simp only [follow, hk, hi] at e; cases e
            | ofNat i =>
              cases hr : rs[i]? with
              | none => simp only [follow, hk, hi, hr] at e; cases e
              | some r =>
                cases hd with
                | @rows c l _ el _ hc hlen hel hh =>
                  have hel' := hel i (lt_of_getElem? hr)
                  cases rest with
                  | nil => exact ⟨_, .element hv hc hi hel'⟩
                  | cons k3 rest =>
                    simp only [follow, hk, hi, hr] at e
                    obtain ⟨w, hw⟩ := ih (segs := k3 :: rest) (by simp at hl ⊢; omega) (hh i r hr) e
                    exact ⟨w, .through hv hc hi hel' hw⟩

/-! ## Layers -/

/-- The dataset in memory is that of the layer. -/
def LayerHolds (h : Heap) (pos : Nat → Option Nat) (a : Nat) (l : Layer) : Prop :=
  match l.place with
  | .plain => Holds h pos (.ptr a) (.record l.fields) none
  | .row => ∃ i, Holds h pos (.ptr a) (.record l.fields) (some i)
  | .loop i => Holds h pos (.ptr a) (.record l.fields) (some i) ∧ Entry h a b!".counter" (.int .int ((i : Nat) + 1))

theorem LayerHolds.holds {a : Nat} {l : Layer} (o : LayerHolds h pos a l) : ∃ pl, Holds h pos (.ptr a) (.record l.fields) pl := by
  unfold LayerHolds at o
  split at o
  · exact ⟨_, o⟩
  · exact ⟨_, o.choose_spec⟩
  · exact ⟨_, o.1⟩

theorem LayerHolds.kept (s : Kept pos h h') {a : Nat} {l : Layer} (o : LayerHolds h pos a l) : LayerHolds h' pos a l := by
  unfold LayerHolds at o ⊢
  split at o
  · exact o.kept s
  · exact ⟨_, o.choose_spec.kept s⟩
  · rename_i i _
    refine ⟨o.1.kept s, ?_⟩
    obtain ⟨t, m, val, w, hm, _, _, _, _, hp⟩ := holds_record o.1
    obtain ⟨t', m1, w', hm1, hg⟩ := o.2
    cases wraps_unique w w'
    rw [hm] at hm1; cases hm1
    obtain ⟨m', e, _, hi⟩ := s.ds hm
    refine ⟨t, m', s.wraps w, e, ?_⟩
    rcases hi with hi | ⟨j, hj, hi⟩
    · rw [hi]; exact hg
    · rw [← hp] at hj; cases hj; exact hi

abbrev LayersHold (h : Heap) (pos : Nat → Option Nat) (σ : List Nat) (ls : List Layer) : Prop := All2 (LayerHolds h pos) σ ls

theorem LayersHold.kept (s : Kept pos h h') {σ : List Nat} {ls : List Layer} (o : LayersHold h pos σ ls) : LayersHold h' pos σ ls := by
  induction o with
  | nil => exact .nil
  | cons e _ ih => exact .cons (e.kept s) ih

theorem split_counter : split 62 b!".counter" = [b!".counter"] := by decide

theorem has_counter {a : Nat} {v : Val} : Has h a b!".counter" v ↔ Entry h a b!".counter" v := by
  unfold Has
  rw [split_counter]
  constructor
  · intro r
    cases r with
    | entry e => exact e
  · exact fun e => .entry e

theorem entry_unique {a : Nat} {k : Str} {v w : Val} (e : Entry h a k v) (e' : Entry h a k w) : v = w := by
  obtain ⟨t, m, q, hm, hg⟩ := e
  obtain ⟨t', m', q', hm', hg'⟩ := e'
  cases wraps_unique q q'
  rw [hm] at hm'; cases hm'
  rw [hg] at hg'; cases hg'
  rfl

/-- What a lookup in the tree answers is what the lookup in memory finds. -/
inductive Agrees (h : Heap) (pos : Nat → Option Nat) : Val → Option (Data × Bool) → Prop where
  | none : Agrees h pos .nil none
  | some {v : Val} {d : Data} {row : Bool} {pl : Option Nat} : Holds h pos v d pl → Fits row pl → Agrees h pos v (some (d, row))

theorem counter_agrees {σ : List Nat} {ls : List Layer} (o : LayersHold h pos σ ls) : ∀ {r : Option (Data × Bool)}, counter ls = some r →
    ∃ v, ValueAt h (some σ) b!".counter" v ∧ Agrees h pos v r := by
  induction o with
  | nil => intro r e; cases e; exact ⟨.nil, .missing, .none⟩
  | @cons a l σ ls q _ ih =>
    intro r e
    obtain ⟨fs, pl⟩ := l
    cases pl with
    | plain =>
      obtain ⟨v, hv, ha⟩ := ih e
      refine ⟨v, .outer ?_ hv, ha⟩
      intro w hw
      rw [has_counter] at hw
      obtain ⟨t, m, val, w1, hm, hc, _, _, _, hp⟩ := holds_record (show Holds h pos (.ptr a) (.record fs) none from q)
      obtain ⟨t', m', w', hm', hg⟩ := hw
      cases wraps_unique w1 w'
      rw [hm] at hm'; cases hm'
      rcases hc with hc | ⟨hc, _⟩
      · rw [hc] at hg; cases hg
      · exact hc hp.symm
    | row => cases e
    | loop i =>
      cases e
      exact ⟨_, .here (has_counter.2 q.2), .some (pl := Option.none) (.scalar trivial) rfl⟩

theorem value_agrees {σ : List Nat} {ls : List Layer} (o : LayersHold h pos σ ls) {path : Str} {r : Option (Data × Bool)} (e : value ls path = some r) :
    ∃ v, ValueAt h (some σ) path v ∧ Agrees h pos v r := by
  unfold value at e
  by_cases hc : path = b!".counter"
  · rw [if_pos hc] at e; subst hc; exact counter_agrees o e
  rw [if_neg hc] at e
  by_cases hn : b!".counter" ∈ split 62 path
  · rw [if_pos hn] at e; cases e
  rw [if_neg hn] at e
  cases e
  induction o with
  | nil => exact ⟨.nil, .missing, .none⟩
  | @cons a l σ ls q _ ih =>
    obtain ⟨pl, q⟩ := q.holds
    rw [List.findSome?_cons]
    cases hf : follow l.fields (split 62 path) with
    | none =>
      obtain ⟨v, hv, ha⟩ := ih
      refine ⟨v, .outer (fun w hw => ?_) hv, ha⟩
      obtain ⟨_, _, _, e, _⟩ := leads_follow hw q hn
      rw [hf] at e; cases e
    | some dr =>
      obtain ⟨d, row⟩ := dr
      obtain ⟨v, hv⟩ := follow_leads _ (Nat.le_refl _) q hf
      obtain ⟨d', row', pl', e, h1, h2⟩ := leads_follow hv q hn
      rw [hf] at e; cases e
      exact ⟨v, .here hv, .some h1 h2⟩

theorem text_shows {v : Val} {r : Option (Data × Bool)} (a : Agrees h pos v r) {t : Str} (e : text x r = some t) : Shows x h v t := by
  cases a with
  | none => cases e; exact Or.inl ⟨rfl, rfl⟩
  | some o _ =>
    cases o with
    | scalar hs =>
      cases e
      by_cases hn : v = .nil
      · rw [if_pos hn]; exact Or.inl ⟨hn, rfl⟩
      · rw [if_neg hn]
        refine Or.inr ⟨hn, 1, ?_⟩
        cases v <;> first | exact hs.elim | rfl
    | table => cases e
    | record => cases e
    | rows => cases e

/-! ## Printing -/

theorem uniform {α : Type} {P : Nat → α → Prop} (mono : ∀ {n m : Nat} {a : α}, n ≤ m → P n a → P m a) : ∀ {l : List α}, (∀ a ∈ l, ∃ n, P n a) →
    ∃ n, ∀ a ∈ l, P n a
  | [], _ => ⟨0, by simp⟩
  | a :: l, hl => by
    obtain ⟨n, hn⟩ := hl a (by simp)
    obtain ⟨m, hm⟩ := uniform (P := P) (fun hl hp => mono hl hp) (l := l) fun b hb => hl b (List.mem_cons_of_mem _ hb)
    refine ⟨n + m, fun b hb => ?_⟩
    rcases List.mem_cons.1 hb with rfl | hb
    · exact mono (Nat.le_add_right _ _) hn
    · exact mono (Nat.le_add_left _ _) (hm b hb)

/-- Printing data that are a tree ends. -/
theorem holds_prints (x : Ext) (wf : WF h) {v : Val} {d : Data} {pl : Option Nat} (o : Holds h pos v d pl) : ∃ n s, sprint x n h v = some s := by
  have mono : ∀ {n m : Nat} {v : Val}, n ≤ m → (∃ s, sprint x n h v = some s) → ∃ s, sprint x m h v = some s :=
    fun hl ⟨s, hs⟩ => ⟨s, sprint_le hl hs⟩
  induction o with
  | @scalar v _ hs => exact ⟨1, fmtScalar x v, by cases v <;> first | exact hs.elim | rfl⟩
  | @table a l _ e => exact ⟨1, Language.toString l, by rw [sprint]; simp only [e]⟩
  | @record a t m fs val w hm hc hf hall _ ih =>
    have hvals : ∀ p ∈ m, ∃ n, ∃ s, sprint x n h p.2 = some s := by
      intro p hp
      obtain ⟨k, v⟩ := p
      have hg := AMap.get_of_mem (wf.nodup t m hm) hp
      by_cases hk : k = b!".counter"
      · subst hk
        rcases hc with hc | ⟨_, i, hc⟩
        · rw [hc] at hg; cases hg
        · rw [hc] at hg; cases hg; exact ⟨1, _, rfl⟩
      · obtain ⟨d, hd⟩ := hall k hk (by rw [hg]; simp)
        have := (hf k d hd).2.2
        rw [hg] at this; cases this
        exact ih k d hd
    obtain ⟨n, hn⟩ := uniform (P := fun n (p : Str × Val) => ∃ s, sprint x n h p.2 = some s) (fun hl => mono hl) hvals
    have ht : ∃ s, sprint x (n + 1) h (.ptr t) = some s := by
      obtain ⟨l, hl⟩ := mapOpt_total (f := fun p : Str × Val => (sprint x n h p.2).map fun s => p.1 ++ b!":" ++ s) (l := m)
        fun p hp => by obtain ⟨s, hs⟩ := hn p hp; exact ⟨_, by rw [hs]; rfl⟩
      exact ⟨b!"xcore.XDataset{" ++ join b!" " (sortStrs l) ++ b!"}", by rw [sprint]; simp only [hm, hl]⟩
    cases w with
    | plain _ => exact ⟨n + 1, ht⟩
    | @wrapper _ b _ hb w =>
      obtain ⟨s, hs⟩ := ht
      refine ⟨n + 2, s, ?_⟩
      rw [sprint]
      simp only [hb, (target_iff wf).2 (.wrapper hb w), hs]
  | @rows c l rs row _ hc hlen hr _ ih =>
    have hvals : ∀ e ∈ l, ∃ n, ∃ b s, e = some b ∧ sprint x n h (.ptr b) = some s := by
      intro e he
      obtain ⟨i, hi⟩ := List.mem_iff_getElem?.1 he
      have hlt : i < rs.length := by rw [← hlen]; exact lt_of_getElem? hi
      have := hr i hlt
      rw [hi] at this; cases this
      obtain ⟨n, s, hs⟩ := ih i _ (List.getElem?_eq_getElem hlt)
      exact ⟨n, _, s, rfl, hs⟩
    obtain ⟨n, hn⟩ := uniform (P := fun n (e : Option Nat) => ∃ b s, e = some b ∧ sprint x n h (.ptr b) = some s)
      (fun hl he => by obtain ⟨b, s, rfl, hs⟩ := he; exact ⟨b, s, rfl, sprint_le hl hs⟩) hvals
    obtain ⟨r, hr⟩ := mapOpt_total (f := fun e : Option Addr => match e with | none => some b!"<nil>" | some b => sprint x n h (.ptr b)) (l := l)
      fun e he => by obtain ⟨b, s, rfl, hs⟩ := hn e he; exact ⟨s, hs⟩
    refine ⟨n + 1, ?_⟩
    rw [sprint]
    rcases hc with hc | hc <;> simp only [hc] <;> split <;> first | exact ⟨_, rfl⟩ | (rename_i hq; exact absurd (hq.symm.trans hr) (by simp))

/-- A capital X. -/
abbrev HasX (s : Str) : Prop := 88 ∈ s

theorem ds_text {t : Nat} {m : AMap Val} (hm : h[t]? = some (.ds m)) {s : Str} : ∀ {n : Nat}, sprint x n h (.ptr t) = some s → HasX s
  | 0, e => by cases e
  | n + 1, e => by
    rw [sprint] at e
    simp only [hm] at e
    split at e <;> cases e
    simp [HasX]

theorem wraps_text (wf : WF h) {a t : Nat} (w : Wraps h a t) {s : Str} : ∀ {n : Nat}, sprint x n h (.ptr a) = some s → HasX s
  | 0, e => by cases e
  | n + 1, e => by
    cases w with
    | plain hm => exact ds_text hm e
    | @wrapper _ b _ hb w =>
      rw [sprint] at e
      simp only [hb, (target_iff wf).2 (.wrapper hb w)] at e
      obtain ⟨m, hm⟩ := wraps_ds w
      exact ds_text hm e

theorem holds_shows (x : Ext) (wf : WF h) {v : Val} {d : Data} {pl : Option Nat} (o : Holds h pos v d pl) (hd : ∀ v, d ≠ .scalar v) :
    ∃ s, HasX s ∧ Shows x h v s := by
  obtain ⟨n, s, hs⟩ := holds_prints x wf o
  have hne : v ≠ .nil := by
    cases o with
    | scalar => exact absurd rfl (hd _)
    | _ => simp
  refine ⟨s, ?_, Or.inr ⟨hne, n, (prints_iff x n h v s).2 hs⟩⟩
  cases o with
  | scalar => exact absurd rfl (hd _)
  | record w => exact wraps_text wf w hs
  | table e =>
    cases n with
    | zero => cases hs
    | succ n =>
      rw [sprint] at hs
      simp only [e] at hs
      cases hs
      simp [HasX, Language.toString]
  | rows hc =>
    cases n with
    | zero => cases hs
    | succ n =>
      rw [sprint] at hs
      rcases hc with hc | hc <;> simp only [hc] at hs <;> split at hs <;> cases hs <;> simp [HasX]

/-! ## Names -/

/-- No box has a name with a capital X. -/
def LowDoc : Doc → Prop
  | .nil => True
  | .elem _ r => LowDoc r
  | .box n b r => ¬ HasX n ∧ LowDoc b ∧ LowDoc r

/-- In none of the documents. -/
def Low (sc : List Doc) : Prop := ∀ d ∈ sc, LowDoc d

theorem split_sub {c : UInt8} {s p : Str} (hp : p ∈ split c s) : ∀ b ∈ p, b ∈ s := by
  obtain ⟨a, b, rfl⟩ := Language.infix_of_mem_split hp
  intro c hc; simp [hc]

theorem low_find {v : Str} : ∀ {d : Doc}, LowDoc d → ∀ {b : Doc}, d.find v = some b → LowDoc b ∧ ¬ HasX v
  | .nil, _, _, e => by cases e
  | .elem _ r, l, _, e => low_find (d := r) l e
  | .box n body r, l, b, e => by
    rw [Doc.find] at e
    cases hr : r.find v with
    | some b' => rw [hr] at e; cases e; exact low_find l.2.2 hr
    | none =>
      rw [hr] at e
      by_cases hv : v ∈ namesOf n
      · rw [if_pos hv] at e; cases e
        refine ⟨l.2.1, fun hx => l.1 (split_sub (List.mem_filter.1 hv).1 _ hx)⟩
      · rw [if_neg hv] at e; cases e

theorem low_lookup {v : Str} : ∀ {sc : List Doc}, Low sc → ∀ {sc' : List Doc}, lookup sc v = some sc' → Low sc' ∧ ¬ HasX v
  | [], _, _, e => by cases e
  | d :: up, l, sc', e => by
    rw [Template.lookup] at e
    split at e
    · rename_i b hb
      cases e
      obtain ⟨h1, h2⟩ := low_find (l d (by simp)) hb
      refine ⟨fun d' hd => ?_, h2⟩
      rcases List.mem_cons.1 hd with rfl | hd
      · exact h1
      · exact l d' hd
    · exact low_lookup (fun d hd => l d (List.mem_cons_of_mem _ hd)) e

theorem Low.lookup {sc : List Doc} (l : Low sc) {names : List Str} {sc' : List Doc} (e : names.findSome? (Template.lookup sc) = some sc') : Low sc' := by
  obtain ⟨v, _, hv⟩ := List.exists_of_findSome?_eq_some e
  exact (low_lookup l hv).1

theorem Low.none {sc : List Doc} (l : Low sc) {v : Str} (hx : HasX v) : Template.lookup sc v = none := by
  cases e : Template.lookup sc v with
  | none => rfl
  | some sc' => exact absurd hx (low_lookup l e).2

/-- The names that are looked up with the text of a value. -/
theorem named_shows (wf : WF h) {v : Val} {r : Option (Data × Bool)} (a : Agrees h pos v r) {sc : List Doc} (lo : Low sc) (pre alone : Str)
    (h0 : text x r ≠ some []) :
    ∃ t, Shows x h v t ∧ t ≠ [] ∧ (named x r pre alone).findSome? (lookup sc) = [pre ++ t, alone].findSome? (lookup sc) := by
  unfold named
  cases ht : text x r with
  | some t => exact ⟨t, text_shows a ht, by rintro rfl; exact h0 ht, rfl⟩
  | none =>
    cases a with
    | none => cases ht
    | @some _ d row _ hh _ =>
      obtain ⟨t, hx, hs⟩ := holds_shows x wf hh (by rintro w rfl; cases ht)
      refine ⟨t, hs, by rintro rfl; simp [HasX] at hx, ?_⟩
      have hn := lo.none (v := pre ++ t) (by simp [HasX] at hx ⊢; exact Or.inr hx)
      simp only [List.findSome?_cons, hn]

theorem named_chooses (wf : WF h) {v : Val} {r : Option (Data × Bool)} (a : Agrees h pos v r) {sc : List Doc} (lo : Low sc) (pre alone : Str) :
    ∃ t, Shows x h v t ∧ (named x r pre alone).findSome? (lookup sc) = [pre ++ t, alone].findSome? (lookup sc) := by
  by_cases h0 : text x r = some []
  · exact ⟨[], text_shows a h0, by rw [named, h0]⟩
  · obtain ⟨t, hs, _, e⟩ := named_shows wf a lo pre alone h0
    exact ⟨t, hs, e⟩

theorem low_means {s : Str} {d : Doc} (hm : Means s d) : LowDoc d := by
  obtain ⟨_, l, hr, e⟩ := hm
  have key : ∀ {s : Str} {l : List (Str × Param)}, Reads s l → ∀ p ∈ l, p.2.kind = .start → ¬ HasX p.2.data := by
    intro s l hr
    induction hr with
    | nil => simp
    | elem hm _ ih =>
      intro p hp hk
      rcases List.mem_cons.1 hp with rfl | hp
      · obtain ⟨src, e, he, _⟩ := hm
        cases he <;> first | cases hk | skip
        rename_i hw _
        intro hx
        have := hw.2 _ hx
        revert this
        unfold BoxChar
        decide
      · exact ih p hp hk
    | text _ _ _ _ ih =>
      intro p hp hk
      rcases List.mem_cons.1 hp with rfl | hp
      · cases hk
      · exact ih p hp hk
  have hall : ∀ p ∈ d.tokens, p.kind = .start → ¬ HasX p.data := by
    intro p hp hk
    rw [← e] at hp
    obtain ⟨q, hq, rfl⟩ := List.mem_map.1 hp
    exact key hr q hq hk
  clear e hr
  rename_i pl
  clear pl
  induction d with
  | nil => trivial
  | elem p r ih => exact ih (fun q hq => hall q (by simp [Doc.tokens, hq]))
  | box n b r ihb ihr =>
    exact ⟨hall ⟨.start, n⟩ (by simp [Doc.tokens]) rfl, ihb fun q hq => hall q (by simp [Doc.tokens, hq]), ihr fun q hq => hall q (by simp [Doc.tokens, hq])⟩

/-! ## Rendering -/

theorem set_counter {a i : Nat} {fs : Fields} (o : Holds h pos (.ptr a) (.record fs) (some i)) :
    ∃ h1, SetCounter h a ((i : Int) + 1) h1 ∧ Kept pos h h1 ∧ LayerHolds h1 pos a ⟨fs, .loop i⟩ := by
  obtain ⟨t, m, val, w, hm, _, _, _, _, hp⟩ := holds_record o
  have hk : Kept pos h (h.set t (.ds (m.set b!".counter" (.int .int ((i : Int) + 1))))) := by
    refine ⟨by simp, fun b => ?_⟩
    rw [List.getElem?_set]
    by_cases hb : t = b
    · subst hb
      exact Or.inr ⟨m, m.set b!".counter" (.int .int ((i : Int) + 1)), i, hm, by simp [lt_of_getElem? hm], fun k hk => AMap.get_set_ne m _ hk,
        AMap.get_set_self _ _ _, hp.symm⟩
    · rw [if_neg hb]; exact Or.inl rfl
  refine ⟨_, ⟨t, m, w, hm, rfl⟩, hk, o.kept hk, t, m.set b!".counter" (.int .int ((i : Int) + 1)), hk.wraps w, ?_,
    AMap.get_set_self _ _ _⟩
  rw [List.getElem?_set]
  simp [lt_of_getElem? hm]

/-- The function for nested documents tells what they render. -/
def Right (x : Ext) (lang : Option Language.Lang) (pos : Nat → Option Nat) (rec : List Doc → List Layer → Option Str) : Prop :=
  ∀ {sc : List Doc} {ls : List Layer} {out : Str} {σ : List Nat} {h : Heap}, rec sc ls = some out → LayersHold h pos σ ls → Low sc → WF h → Short h →
    ∃ h', Renders x lang sc .document (some σ) h h' out ∧ Kept pos h h'

variable {lang : Option Language.Lang} {rec : List Doc → List Layer → Option Str} {sc : List Doc} {ls : List Layer} {out : Str} {σ : List Nat}

theorem first_renders (hr : Right x lang pos rec) {names : List Str} (e : first rec sc ls names = some out) (o : LayersHold h pos σ ls) (lo : Low sc) (wf : WF h)
    (sh : Short h) : ∃ h', Renders x lang sc (.choose names) (some σ) h h' out ∧ Kept pos h h' := by
  unfold first at e
  cases hf : names.findSome? (lookup sc) with
  | none => rw [hf] at e; cases e; exact ⟨h, .noChoice hf, .refl h⟩
  | some sc' =>
    rw [hf] at e
    obtain ⟨h', r, k⟩ := hr e o (lo.lookup hf) wf sh
    exact ⟨h', .chosen hf r, k⟩

theorem rounds_renders (hr : Right x lang pos rec) {id : Str} {n : Nat} : ∀ {rs : List Fields} {i : Nat} {l : List (Option Nat)} {h : Heap} {out : Str},
    rounds rec sc ls id n i rs = some out → LayersHold h pos σ ls → Low sc → WF h → Short h → (i : Int) + l.length < 2 ^ 63 → l.length = rs.length →
    (∀ (j : Nat) (fs : Fields), rs[j]? = some fs → ∃ a, l[j]? = some (some a) ∧ Holds h pos (.ptr a) (.record fs) (some (i + j))) →
    ∃ h', Renders x lang sc (.loop id n i l) (some σ) h h' out ∧ Kept pos h h' := by
  intro rs
  induction rs with
  | nil =>
    intro i l h out e o lo wf sh hi hl hrow
    cases e
    cases l with
    | nil => exact ⟨h, .loopEnd, .refl h⟩
    | cons => simp at hl
  | cons row rs ih =>
    intro i l h out e o lo wf sh hi hl hrow
    rw [rounds] at e
    split at e
    · rename_i t1 t2 e1 e2
      cases e
      cases l with
      | nil => simp at hl
      | cons q l =>
        obtain ⟨a, ha, hh⟩ := hrow 0 row rfl
        cases ha
        obtain ⟨h1, hc, k1, lh⟩ := set_counter hh
        simp only [List.length_cons] at hi hl
        have wf1 := wf_counter wf ⟨by omega, by omega⟩ hc
        have sh1 := (shape_counter hc).short sh
        obtain ⟨h2, r2, k2⟩ := first_renders hr e1 (.cons lh (o.kept k1)) lo wf1 sh1
        have wf2 := renders_wf r2 wf1 sh1 trivial
        have sh2 := (renders_shape r2).short sh1
        have k12 := k1.trans k2
        obtain ⟨h3, r3, k3⟩ := ih (i := i + 1) (l := l) e2 (o.kept k12) lo wf2 sh2 (by omega) (by omega) (by
          intro j fs hj
          obtain ⟨b, hb, hh⟩ := hrow (j + 1) fs (by simpa using hj)
          refine ⟨b, by simpa using hb, ?_⟩
          rw [show i + 1 + j = i + (j + 1) by omega]
          exact hh.kept k12)
        exact ⟨h3, .loop hc r2 r3, k12.trans k3⟩
    · cases e

theorem inner_holds {v : Val} {fs : Fields} {row : Bool} (o : LayersHold h pos σ ls) (a : Agrees h pos v (some (.record fs, row))) :
    ∃ b, v = .ptr b ∧ IsDataset h b ∧ LayersHold h pos (b :: σ) (inner fs row ls) := by
  cases a with
  | some hh hf =>
    obtain ⟨b, rfl, hd⟩ := holds_isDataset hh
    refine ⟨b, rfl, hd, .cons ?_ o⟩
    cases row with
    | false => cases hf; exact hh
    | true => obtain ⟨i, rfl⟩ := hf; exact ⟨i, hh⟩

theorem agrees_not_dataset {v : Val} {r : Option (Data × Bool)} (a : Agrees h pos v r) (hd : ∀ fs row, r ≠ some (.record fs, row)) :
    ∀ b, v = .ptr b → ¬ IsDataset h b := by
  cases a with
  | none => simp
  | some hh hf => exact holds_not_dataset hh (by rintro fs rfl; exact hd _ _ rfl)

theorem reference_renders (hr : Right x lang pos rec) {d : Str} (e : reference x rec sc ls (split 58 d) = some out) (o : LayersHold h pos σ ls) (lo : Low sc) (wf : WF h)
    (sh : Short h) : ∃ h', Renders x lang sc (.elem ⟨.reference, d⟩) (some σ) h h' out ∧ Kept pos h h' := by
  generalize hp : split 58 d = ps at e
  unfold reference at e
  split at e
  · rename_i id key
    by_cases hl : lookup sc id = none
    · rw [if_pos hl] at e; cases e
      exact ⟨h, .referenceNone hp hl, .refl h⟩
    · rw [if_neg hl] at e
      cases hv : value ls key with
      | none => rw [hv] at e; cases e
      | some r =>
        rw [hv] at e
        obtain ⟨v, va, ag⟩ := value_agrees o hv
        split at e
        · cases e
        · rename_i fs row q
          cases q
          obtain ⟨b, rfl, hd, o'⟩ := inner_holds o ag
          obtain ⟨h', r, k⟩ := first_renders hr e o' lo wf sh
          exact ⟨h', .referenceWith hp hl va hd r, k⟩
        · rename_i r' hne q
          cases q
          obtain ⟨h', rr, k⟩ := first_renders hr e o lo wf sh
          exact ⟨h', .referenceWithout hp hl va (agrees_not_dataset ag fun fs row => by rintro rfl; exact hne fs row rfl) rr, k⟩
  · rename_i any key pre
    cases hv : value ls key with
    | none => rw [hv] at e; cases e
    | some r =>
      rw [hv] at e
      obtain ⟨v, va, ag⟩ := value_agrees o hv
      obtain ⟨t, hs, hn⟩ := named_chooses wf ag lo pre pre
      have e' : first rec sc ls [pre ++ t, pre] = some out := by rw [first, ← hn]; exact e
      obtain ⟨h', rr, k⟩ := first_renders hr e' o lo wf sh
      exact ⟨h', .referenceValue hp va hs rr, k⟩
  · rename_i id rest h1 h2
    obtain ⟨h', rr, k⟩ := first_renders hr e o lo wf sh
    refine ⟨h', .reference hp ?_ ?_ rr, k⟩
    · intro q
      match rest, q with
      | [key], _ => exact h1 key rfl
    · intro q
      match rest, q with
      | [key, pre], _ => exact h2 key pre rfl
  · cases e

theorem range_renders (hr : Right x lang pos rec) {d key id : Str} (ht : Target d key id) (e : range rec sc ls key id = some out)
    (o : LayersHold h pos σ ls) (lo : Low sc) (wf : WF h) (sh : Short h) : ∃ h', Renders x lang sc (.elem ⟨.range, d⟩) (some σ) h h' out ∧ Kept pos h h' := by
  unfold range at e
  by_cases hl : lookup sc id = none
  · rw [if_pos hl] at e; cases e
    exact ⟨h, .rangeNothing ht (Or.inl hl), .refl h⟩
  · rw [if_neg hl] at e
    cases hv : value ls key with
    | none => rw [hv] at e; cases e
    | some r =>
      rw [hv] at e
      obtain ⟨v, va, ag⟩ := value_agrees o hv
      split at e
      · cases e
      · rename_i row rest _ q
        cases q
        cases ag with
        | some hh _ =>
          cases hh with
          | @rows c l _ el _ hc hlen hel hv =>
            have hs := sh _ _ hc
            obtain ⟨h', rr, k⟩ := rounds_renders (l := l) hr e o lo wf sh (by simpa using hs) hlen (fun j fs hj => ⟨el j, hel j (lt_of_getElem? hj), by
              rw [Nat.zero_add]; exact hv j fs hj⟩)
            refine ⟨h', .range ht hl va hc ?_ ?_, k⟩
            · rintro rfl; simp at hlen
            · rw [hlen]; exact rr
      · rename_i r' hne q
        cases q
        obtain ⟨h', rr, k⟩ := first_renders hr e o lo wf sh
        refine ⟨h', .rangeEmpty ht hl va ?_ rr, k⟩
        rintro c l rfl hc
        cases ag with
        | @some _ dd row _ hh _ =>
          cases dd with
          | rows rs =>
            cases rs with
            | nil =>
              cases hh with
              | rows hc' hlen =>
                cases isCollection_unique hc hc'
                exact List.length_eq_zero_iff.1 hlen
            | cons a b => exact absurd rfl (hne a b row)
          | _ => exact absurd hc (holds_not_collection hh (by simp) _ _ rfl)

theorem condition_renders (hr : Right x lang pos rec) {d key id : Str} (ht : Target d key id) (e : condition x rec sc ls key id = some out)
    (o : LayersHold h pos σ ls) (lo : Low sc) (wf : WF h) (sh : Short h) : ∃ h', Renders x lang sc (.elem ⟨.condition, d⟩) (some σ) h h' out ∧ Kept pos h h' := by
  unfold condition at e
  cases hv : value ls key with
  | none => rw [hv] at e; cases e
  | some r =>
    rw [hv] at e
    obtain ⟨v, va, ag⟩ := value_agrees o hv
    split at e
    · cases e
    · rename_i fs row q
      cases q
      obtain ⟨b, rfl, hd, o'⟩ := inner_holds o ag
      by_cases hl : lookup sc id = none
      · rw [if_pos hl] at e; cases e
        cases ag with
        | some hh _ =>
          obtain ⟨t, hx, hs⟩ := holds_shows x wf hh (by simp)
          exact ⟨h, .conditionNothing ht va hs (by rintro rfl; simp [HasX] at hx) hl, .refl h⟩
      · rw [if_neg hl] at e
        obtain ⟨h', rr, k⟩ := first_renders hr e o' lo wf sh
        cases ag with
        | some hh _ =>
          obtain ⟨t, _, hs⟩ := holds_shows x (renders_wf rr wf sh trivial) (hh.kept k) (by simp)
          exact ⟨h', .conditionDataset ht va hd hl rr hs, k⟩
    · rename_i r' hne q
      cases q
      have hnd := agrees_not_dataset ag fun fs row => by rintro rfl; exact hne fs row rfl
      by_cases h0 : text x r = some []
      · rw [if_pos h0] at e
        obtain ⟨h', rr, k⟩ := first_renders hr e o lo wf sh
        exact ⟨h', .conditionNone ht va (text_shows ag h0) rr, k⟩
      · rw [if_neg h0] at e
        obtain ⟨t, hs, ht0, hn⟩ := named_shows wf ag lo (id ++ b!".") id h0
        by_cases hl : lookup sc id = none
        · rw [if_pos hl] at e; cases e
          exact ⟨h, .conditionNothing ht va hs ht0 hl, .refl h⟩
        · rw [if_neg hl] at e
          have e' : first rec sc ls [id ++ b!"." ++ t, id] = some out := by rw [first, ← hn]; exact e
          obtain ⟨h', rr, k⟩ := first_renders hr e' o lo wf sh
          exact ⟨h', .conditionValue ht va hnd hs ht0 hl rr, k⟩

theorem element_renders (hr : Right x lang pos rec) {p : Param} (e : element x lang rec sc ls p = some out) (o : LayersHold h pos σ ls) (lo : Low sc) (wf : WF h)
    (sh : Short h) : ∃ h', Renders x lang sc (.elem p) (some σ) h h' out ∧ Kept pos h h' := by
  obtain ⟨k, d⟩ := p
  cases k with
  | string => cases e; exact ⟨h, .text, .refl h⟩
  | comment => cases e; exact ⟨h, .comment, .refl h⟩
  | language => cases e; exact ⟨h, .language, .refl h⟩
  | «variable» =>
    simp only [element] at e
    cases hv : value ls d with
    | none => rw [hv] at e; cases e
    | some r =>
      rw [hv] at e
      obtain ⟨v, va, ag⟩ := value_agrees o hv
      exact ⟨h, .variable va (text_shows ag e), .refl h⟩
  | reference => exact reference_renders hr e o lo wf sh
  | range =>
    simp only [element] at e
    split at e
    · cases e
    · rename_i key hp; exact range_renders hr (Or.inl ⟨hp, rfl⟩) e o lo wf sh
    · rename_i key id rest hp; exact range_renders hr (Or.inr ⟨rest, hp⟩) e o lo wf sh
  | condition =>
    simp only [element] at e
    split at e
    · cases e
    · rename_i key hp; exact condition_renders hr (Or.inl ⟨hp, rfl⟩) e o lo wf sh
    · rename_i key id rest hp; exact condition_renders hr (Or.inr ⟨rest, hp⟩) e o lo wf sh
  | _ => cases e

theorem elements_render (hr : Right x lang pos rec) : ∀ {l : List Param} {h : Heap} {out : Str}, elements (element x lang rec sc ls) l = some out →
    LayersHold h pos σ ls → Low sc → WF h → Short h → ∃ h', Renders x lang sc (.body l) (some σ) h h' out ∧ Kept pos h h' := by
  intro l
  induction l with
  | nil => intro h out e o lo wf sh; cases e; exact ⟨h, .nil, .refl h⟩
  | cons p l ih =>
    intro h out e o lo wf sh
    rw [elements] at e
    split at e
    · rename_i t1 t2 e1 e2
      cases e
      obtain ⟨h1, r1, k1⟩ := element_renders hr e1 o lo wf sh
      obtain ⟨h2, r2, k2⟩ := ih e2 (o.kept k1) lo (renders_wf r1 wf sh trivial) ((renders_shape r1).short sh)
      exact ⟨h2, .cons r1 r2, k1.trans k2⟩
    · cases e

theorem page_right (x : Ext) (lang : Option Language.Lang) (pos : Nat → Option Nat) : ∀ n, Right x lang pos (page x lang n)
  | 0 => fun e _ _ _ _ => by cases e
  | n + 1 => fun e o lo wf sh => by
    rw [page] at e
    obtain ⟨h', r, k⟩ := elements_render (page_right x lang pos n) e o lo wf sh
    exact ⟨h', .document r, k⟩

theorem langOf_holds {a : Nat} {fs : Fields} {pl : Option Nat} (o : Holds h pos (.ptr a) (.record fs) pl) : LangOf h a (langOf fs) := by
  have hne : (b!"#" : Str) ≠ b!".counter" := by decide
  unfold langOf
  cases hl : fs.lookup b!"#" with
  | none =>
    refine .none fun b l e => ?_
    obtain ⟨d, hd, _⟩ := holds_entry o hne e
    rw [hl] at hd; cases hd
  | some d =>
    obtain ⟨v, e, hh⟩ := entry_of_lookup o hl
    obtain ⟨q, hh⟩ : ∃ q, Holds h pos v d q := ⟨_, hh⟩
    cases hh with
    | table ht => exact .table e ht
    | scalar hs =>
      refine .none fun b l e' => ?_
      cases entry_unique e e'; exact hs.elim
    | record w =>
      refine .none fun b l e' q => ?_
      cases entry_unique e e'
      rcases wraps_isDataset w with ⟨m, w⟩ | ⟨i, w⟩ <;> rw [q] at w <;> cases w
    | rows hc =>
      refine .none fun b l e' q => ?_
      cases entry_unique e e'
      rcases hc with w | w <;> rw [q] at w <;> cases w

theorem render_executes {depth : Nat} {d : Doc} {a : Nat} {fs : Fields} (o : Holds h pos (.ptr a) (.record fs) none) (lo : LowDoc d) (wf : WF h) (sh : Short h)
    (e : render x depth d fs = some out) : ∃ h', Executes x d (some a) h h' out ∧ Kept pos h h' := by
  obtain ⟨h', r, k⟩ := page_right x (langOf fs) pos depth (σ := [a]) (h := h) e (.cons o .nil) (by intro d' hd; rw [List.mem_singleton.1 hd]; exact lo) wf sh
  exact ⟨h', .data (langOf_holds o) r, k⟩

/-! ## Depth -/

/-- The second function answers whatever the first one does. -/
def More (f g : List Doc → List Layer → Option Str) : Prop := ∀ sc ls out, f sc ls = some out → g sc ls = some out

theorem first_more {f g : List Doc → List Layer → Option Str} (m : More f g) {names : List Str} (e : first f sc ls names = some out) : first g sc ls names = some out := by
  unfold first at e ⊢
  cases hf : names.findSome? (lookup sc) with
  | none => rw [hf] at e; exact e
  | some sc' => rw [hf] at e; exact m _ _ _ e

theorem rounds_more {f g : List Doc → List Layer → Option Str} (m : More f g) {id : Str} {n : Nat} : ∀ {rs : List Fields} {i : Nat} {out : Str},
    rounds f sc ls id n i rs = some out → rounds g sc ls id n i rs = some out := by
  intro rs
  induction rs with
  | nil => intro i out e; exact e
  | cons r rs ih =>
    intro i out e
    rw [rounds] at e ⊢
    split at e
    · rename_i a b e1 e2
      rw [first_more m e1, ih e2]; exact e
    · cases e

theorem reference_more {f g : List Doc → List Layer → Option Str} (m : More f g) {l : List Str} (e : reference x f sc ls l = some out) :
    reference x g sc ls l = some out := by
  unfold reference at e ⊢
  split at e
  · rename_i id key
    by_cases hl : lookup sc id = none
    · rw [if_pos hl] at e ⊢; exact e
    · rw [if_neg hl] at e ⊢
      split at e
      · cases e
      · exact first_more m e
      · exact first_more m e
  · split at e
    · cases e
    · exact first_more m e
  · exact first_more m e
  · cases e

theorem range_more {f g : List Doc → List Layer → Option Str} (m : More f g) {key id : Str} (e : range f sc ls key id = some out) :
    range g sc ls key id = some out := by
  unfold range at e ⊢
  by_cases hl : lookup sc id = none
  · rw [if_pos hl] at e ⊢; exact e
  · rw [if_neg hl] at e ⊢
    split at e
    · cases e
    · exact rounds_more m e
    · exact first_more m e

theorem condition_more {f g : List Doc → List Layer → Option Str} (m : More f g) {key id : Str} (e : condition x f sc ls key id = some out) :
    condition x g sc ls key id = some out := by
  unfold condition at e ⊢
  split at e
  · cases e
  · by_cases hl : lookup sc id = none
    · rw [if_pos hl] at e ⊢; exact e
    · rw [if_neg hl] at e ⊢; exact first_more m e
  · rename_i v _ _
    by_cases h0 : text x v = some []
    · rw [if_pos h0] at e ⊢; exact first_more m e
    · rw [if_neg h0] at e ⊢
      by_cases hl : lookup sc id = none
      · rw [if_pos hl] at e ⊢; exact e
      · rw [if_neg hl] at e ⊢; exact first_more m e

theorem element_more {f g : List Doc → List Layer → Option Str} (m : More f g) {p : Param} (e : element x lang f sc ls p = some out) :
    element x lang g sc ls p = some out := by
  obtain ⟨k, d⟩ := p
  cases k with
  | reference => exact reference_more m e
  | range =>
    simp only [element] at e ⊢
    split at e
    · cases e
    · exact range_more m e
    · exact range_more m e
  | condition =>
    simp only [element] at e ⊢
    split at e
    · cases e
    · exact condition_more m e
    · exact condition_more m e
  | _ => exact e

theorem elements_more {f g : List Doc → List Layer → Option Str} (m : More f g) : ∀ {l : List Param} {out : Str},
    elements (element x lang f sc ls) l = some out → elements (element x lang g sc ls) l = some out := by
  intro l
  induction l with
  | nil => intro out e; exact e
  | cons p l ih =>
    intro out e
    rw [elements] at e ⊢
    split at e
    · rename_i a b e1 e2
      rw [element_more m e1, ih e2]; exact e
    · cases e

theorem page_succ : ∀ n, More (page x lang n) (page x lang (n + 1))
  | 0 => fun _ _ _ e => by cases e
  | n + 1 => fun sc ls out e => by
    rw [page] at e ⊢
    exact elements_more (page_succ n) e

theorem page_mono {n m : Nat} (hn : n ≤ m) (e : page x lang n sc ls = some out) : page x lang m sc ls = some out := by
  induction hn with
  | refl => exact e
  | step _ ih => exact page_succ _ _ _ _ ih

end Xcore.Page
