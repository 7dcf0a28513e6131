import Verif.Spec.V1.Page
import Verif.Proof.V1.TemplateSafe
import Verif.Proof.DatasetPrintTotal

/-!
# The page of version 1 without memory is the page of the code
-/

namespace Xcore.V1.Page

open Xcore.Template (Kind Param Doc rangeNames kindNumber parts Target Foreign)
open Xcore.Dataset (Ext Val SliceKind fmtScalar mapOpt colText Prints GoPrints)
open Xcore.V1.Dataset
open Xcore.V1.Template hiding langOf

variable {h : Heap} {x : Ext}

/-! ## Content -/

theorem all2_fields {R : Val → Data → Prop} : ∀ {m : AMap Val} {fs : Fields}, fs.map Prod.fst = m.map Prod.fst →
    (∀ (i : Nat) (k k' : Str) (v : Val) (d : Data), m[i]? = some (k, v) → fs[i]? = some (k', d) → R v d) →
    All2 (fun (p : Str × Val) (q : Str × Data) => p.1 = q.1 ∧ R p.2 q.2) m fs
  | [], [], _, _ => .nil
  | [], _ :: _, e, _ => by simp at e
  | _ :: _, [], e, _ => by simp at e
  | (k, v) :: m, (k', d) :: fs, e, hi => by
    simp only [List.map_cons, List.cons.injEq] at e
    exact .cons ⟨e.1.symm, hi 0 k k' v d rfl rfl⟩ (all2_fields e.2 fun i k k' v d h1 h2 => hi (i + 1) k k' v d h1 h2)

/-- The content of a row. -/
def RowHolds (h : Heap) : Option Nat → Option Fields → Prop
  | none, none => True
  | some a, some fs => Holds h (.ptr a) (.record fs)
  | _, _ => False

theorem all2_rows {R : Nat → Fields → Prop} : ∀ {l : List (Option Nat)} {rs : List (Option Fields)}, l.map Option.isSome = rs.map Option.isSome →
    (∀ (i : Nat) (a : Nat) (fs : Fields), l[i]? = some (some a) → rs[i]? = some (some fs) → R a fs) →
    All2 (fun e r => match e, r with | none, none => True | some a, some fs => R a fs | _, _ => False) l rs
  | [], [], _, _ => .nil
  | [], _ :: _, e, _ => by simp at e
  | _ :: _, [], e, _ => by simp at e
  | a :: l, r :: rs, e, hi => by
    simp only [List.map_cons, List.cons.injEq] at e
    refine .cons ?_ (all2_rows e.2 fun i a fs h1 h2 => hi (i + 1) a fs h1 h2)
    match a, r, e.1, hi with
    | none, none, _, _ => trivial
    | some a, some fs, _, hi => exact hi 0 a fs rfl rfl
    | none, some _, e, _ => cases e
    | some _, none, e, _ => cases e

theorem holds_record {a : Nat} {fs : Fields} (o : Holds h (.ptr a) (.record fs)) : ∃ m m' : AMap Val, h[a]? = some (.ds m) ∧ List.Perm m' m ∧
    All2 (fun (p : Str × Val) (q : Str × Data) => p.1 = q.1 ∧ Holds h p.2 q.2) m' fs := by
  cases o with
  | record e hp hk hv => exact ⟨_, _, e, hp, all2_fields hk hv⟩

theorem holds_rows {c : Nat} {rs : List (Option Fields)} (o : Holds h (.ptr c) (.rows rs)) : ∃ l, IsCollection h c l ∧ All2 (RowHolds h) l rs := by
  cases o with
  | rows e hk hv =>
    refine ⟨_, e, (all2_rows hk hv).imp fun a r _ hr => ?_⟩
    match a, r, hr with
    | none, none, _ => trivial
    | some a, some fs, hr => exact hr

theorem record_of_all2 {a : Nat} {m : AMap Val} {fs : Fields} (e : h[a]? = some (.ds m))
    (o : All2 (fun (p : Str × Val) (q : Str × Data) => p.1 = q.1 ∧ Holds h p.2 q.2) m fs) : Holds h (.ptr a) (.record fs) := by
  refine .record e (.refl _) ?_ fun i k k' v d h1 h2 => ?_
  · clear e
    induction o with
    | nil => rfl
    | cons hr _ ih => simp [hr.1, ih]
  · obtain ⟨q, hq, hr⟩ := o.get i h1
    rw [h2] at hq; cases hq
    exact hr.2

theorem rows_of_all2 {c : Nat} {l : List (Option Nat)} {rs : List (Option Fields)} (e : h[c]? = some (.col l)) (o : All2 (RowHolds h) l rs) :
    Holds h (.ptr c) (.rows rs) := by
  refine .rows e ?_ fun i a fs h1 h2 => ?_
  · clear e
    induction o with
    | nil => rfl
    | @cons a r _ _ hr _ ih =>
      match a, r, hr with
      | none, none, _ => simp [ih]
      | some _, some _, _ => simp [ih]
  · obtain ⟨q, hq, hr⟩ := o.get i h1
    rw [h2] at hq; cases hq
    exact hr

theorem holds_isDataset {v : Val} {fs : Fields} (o : Holds h v (.record fs)) : ∃ a, v = .ptr a ∧ IsDataset h a := by
  cases o with
  | record e _ _ _ => exact ⟨_, rfl, _, e⟩

theorem holds_not_dataset {v : Val} {d : Data} (o : Holds h v d) (hd : ∀ fs, d ≠ .record fs) : ¬ ValIsDataset h v := by
  rintro ⟨a, rfl, m, e⟩
  cases o with
  | scalar hs => exact hs.elim
  | table e' => rw [e] at e'; cases e'
  | record => exact hd _ rfl
  | rows e' => rw [IsCollection, e] at e'; cases e'

theorem holds_not_collection {v : Val} {d : Data} (o : Holds h v d) (hd : ∀ rs, d ≠ .rows rs) : ¬ ValIsCollection h v := by
  rintro ⟨a, l, rfl, e⟩
  rw [IsCollection] at e
  cases o with
  | scalar hs => exact hs.elim
  | table e' => rw [e] at e'; cases e'
  | record e' => rw [e] at e'; cases e'
  | rows => exact hd _ rfl

theorem lookup_all2 {R : Val → Data → Prop} {m : AMap Val} {fs : Fields} (o : All2 (fun (p : Str × Val) (q : Str × Data) => p.1 = q.1 ∧ R p.2 q.2) m fs) (k : Str) :
    (m.get k = none ∧ fs.lookup k = none) ∨ ∃ v d, m.get k = some v ∧ fs.lookup k = some d ∧ R v d := by
  induction o with
  | nil => exact Or.inl ⟨rfl, rfl⟩
  | @cons p q m fs hd _ ih =>
    obtain ⟨k1, v⟩ := p
    obtain ⟨k2, d⟩ := q
    obtain ⟨rfl, hr⟩ := hd
    simp only at hr
    by_cases e : k1 = k
    · subst e
      exact Or.inr ⟨v, d, by simp [AMap.get], by simp [List.lookup], hr⟩
    · have e' : (k == k1) = false := by simp; exact fun q => e q.symm
      simp only [AMap.get, List.lookup, e', if_neg e]
      exact ih

theorem get_perm {m m' : AMap Val} (hp : List.Perm m' m) (hn : m.Nodup) (k : Str) : m'.get k = m.get k := by
  have hn' : AMap.Nodup m' := by
    unfold AMap.Nodup AMap.keys at hn ⊢
    exact (hp.map Prod.fst).nodup_iff.2 hn
  cases e : m.get k with
  | some v => exact AMap.get_of_mem hn' (hp.mem_iff.2 (AMap.mem_of_get e))
  | none =>
    cases e' : m'.get k with
    | none => rfl
    | some v =>
      have := AMap.get_of_mem hn (hp.mem_iff.1 (AMap.mem_of_get e'))
      rw [e] at this; cases this

theorem lookup_holds (wf : WF h) {a : Nat} {fs : Fields} (o : Holds h (.ptr a) (.record fs)) (k : Str) :
    ((∀ v, ¬ Entry h a k v) ∧ fs.lookup k = none) ∨ ∃ v d, Entry h a k v ∧ fs.lookup k = some d ∧ Holds h v d := by
  obtain ⟨m, m', e, hp, hv⟩ := holds_record o
  have hg := get_perm hp (wf.nodup a m e) k
  rcases lookup_all2 hv k with ⟨h1, h2⟩ | ⟨v, d, h1, h2, h3⟩
  · refine Or.inl ⟨?_, h2⟩
    rintro v ⟨m1, e1, g⟩
    rw [e] at e1; cases e1
    rw [← hg, h1] at g; cases g
  · exact Or.inr ⟨v, d, ⟨m, e, by rw [← hg]; exact h1⟩, h2, h3⟩

theorem entry_unique {a : Nat} {k : Str} {v w : Val} (e : Entry h a k v) (e' : Entry h a k w) : v = w := by
  obtain ⟨m, hm, hg⟩ := e
  obtain ⟨m', hm', hg'⟩ := e'
  rw [hm] at hm'; cases hm'
  rw [hg] at hg'; cases hg'; rfl

theorem entry_lookup (wf : WF h) {a : Nat} {fs : Fields} (o : Holds h (.ptr a) (.record fs)) {k : Str} {v : Val} (e : Entry h a k v) :
    ∃ d, fs.lookup k = some d ∧ Holds h v d := by
  rcases lookup_holds wf o k with ⟨hn, _⟩ | ⟨w, d, ew, hl, hd⟩
  · exact absurd e (hn v)
  · cases entry_unique e ew; exact ⟨d, hl, hd⟩

theorem lookup_entry (wf : WF h) {a : Nat} {fs : Fields} (o : Holds h (.ptr a) (.record fs)) {k : Str} {d : Data} (e : fs.lookup k = some d) :
    ∃ v, Entry h a k v ∧ Holds h v d := by
  rcases lookup_holds wf o k with ⟨_, hn⟩ | ⟨w, d', ew, hl, hd⟩
  · rw [hn] at e; cases e
  · rw [hl] at e; cases e; exact ⟨w, ew, hd⟩

/-! ## Paths -/

theorem row_at {l : List (Option Nat)} {rs : List (Option Fields)} (o : All2 (RowHolds h) l rs) : ∀ i : Nat,
    (∀ e, l[i]? = some (some e) → ∃ fs, rs[i]? = some (some fs) ∧ Holds h (.ptr e) (.record fs)) ∧
    (∀ fs, rs[i]? = some (some fs) → ∃ e, l[i]? = some (some e) ∧ Holds h (.ptr e) (.record fs)) := by
  induction o with
  | nil => simp
  | @cons a r l rs hr _ ih =>
    intro i
    cases i with
    | succ i => simpa using ih i
    | zero =>
      simp only [List.getElem?_cons_zero, Option.some.injEq]
      match a, r, hr with
      | none, none, _ => simp
      | some a, some fs, hr =>
        exact ⟨fun e q => ⟨fs, rfl, by cases q; exact hr⟩, fun fs' q => ⟨a, rfl, by cases q; exact hr⟩⟩

theorem leads_follow (wf : WF h) {a : Nat} {segs : List Str} {v : Val} (r : Leads h a segs v) : ∀ {fs : Fields}, Holds h (.ptr a) (.record fs) →
    ∃ d, follow fs segs = some d ∧ Holds h v d := by
  induction r with
  | entry e =>
    intro fs o
    exact entry_lookup wf o e
  | dataset e hb _ ih =>
    intro fs o
    obtain ⟨d, hl, hd⟩ := entry_lookup wf o e
    cases d with
    | record gs => simp only [follow, hl]; exact ih hd
    | _ => exact absurd ⟨_, rfl, hb⟩ (holds_not_dataset hd (by simp))
  | @element a c e' s s2 l i e hcl hi hl' =>
    intro fs o
    obtain ⟨d, hl, hd⟩ := entry_lookup wf o e
    cases d with
    | rows rs =>
      obtain ⟨l2, hc2, hrs⟩ := holds_rows hd
      rw [IsCollection] at hcl hc2
      rw [hcl] at hc2; cases hc2
      obtain ⟨gs, hg, hh⟩ := (row_at hrs i).1 e' hl'
      exact ⟨.record gs, by simp only [follow, hl, hi, hg], hh⟩
    | _ => exact absurd ⟨_, _, rfl, hcl⟩ (holds_not_collection hd (by simp))
  | @through a c e' s s2 r rest l i v e hcl hi hl' _ ih =>
    intro fs o
    obtain ⟨d, hl, hd⟩ := entry_lookup wf o e
    cases d with
    | rows rs =>
      obtain ⟨l2, hc2, hrs⟩ := holds_rows hd
      rw [IsCollection] at hcl hc2
      rw [hcl] at hc2; cases hc2
      obtain ⟨gs, hg, hh⟩ := (row_at hrs i).1 e' hl'
      obtain ⟨d, h1, h2⟩ := ih hh
      exact ⟨d, by simp only [follow, hl, hi, hg]; exact h1, h2⟩
    | _ => exact absurd ⟨_, _, rfl, hcl⟩ (holds_not_collection hd (by simp))
  | literal e hw e2 =>
    intro fs o
    obtain ⟨d, hl, hd⟩ := entry_lookup wf o e
    obtain ⟨d2, hl2, hd2⟩ := entry_lookup wf o e2
    refine ⟨d2, ?_, hd2⟩
    cases d with
    | record gs => obtain ⟨a, rfl, hds⟩ := holds_isDataset hd; exact absurd hds (hw a rfl).1
    | rows rs =>
      cases hd with
      | rows hc => exact absurd hc ((hw _ rfl).2 _)
    | _ => simp only [follow, hl, hl2]

theorem follow_leads (wf : WF h) : ∀ (n : Nat) {segs : List Str} {a : Nat} {fs : Fields} {d : Data}, segs.length ≤ n →
    Holds h (.ptr a) (.record fs) → follow fs segs = some d → ∃ v, Leads h a segs v ∧ Holds h v d := by
  intro n
  induction n with
  | zero =>
    intro segs a fs d hl _ e
    cases segs with
    | nil => cases e
    | cons => simp at hl
  | succ n ih =>
    intro segs a fs d hl o e
    match segs, hl, e with
    | [k], _, e =>
      obtain ⟨v, hv, hd⟩ := lookup_entry wf o (show fs.lookup k = some d from e)
      exact ⟨v, .entry hv, hd⟩
    | k :: k2 :: rest, hl, e =>
      cases hk : fs.lookup k with
      | none => simp only [follow, hk] at e; cases e
      | some d' =>
        obtain ⟨v, hv, hd⟩ := lookup_entry wf o hk
        have lit : (∀ fs, d' ≠ .record fs) → (∀ rs, d' ≠ .rows rs) → fs.lookup (join b!">" (k :: k2 :: rest)) = some d →
            ∃ v, Leads h a (k :: k2 :: rest) v ∧ Holds h v d := by
          intro h1 h2 e
          obtain ⟨w, hw, hdw⟩ := lookup_entry wf o e
          exact ⟨w, .literal hv (fun b e => ⟨fun q => holds_not_dataset hd h1 ⟨b, e, q⟩, fun l q => holds_not_collection hd h2 ⟨b, l, e, q⟩⟩) hw, hdw⟩
        cases d' with
        | scalar => simp only [follow, hk] at e; exact lit (by simp) (by simp) e
        | array => simp only [follow, hk] at e; exact lit (by simp) (by simp) e
        | table => simp only [follow, hk] at e; exact lit (by simp) (by simp) e
        | record gs =>
          simp only [follow, hk] at e
          obtain ⟨b, rfl, hb⟩ := holds_isDataset hd
          obtain ⟨w, hw, hdw⟩ := ih (segs := k2 :: rest) (by simp at hl ⊢; omega) hd e
          exact ⟨w, .dataset hv hb hw, hdw⟩
        | rows rs =>
          cases hi : atoi k2 with
          | none => simp only [follow, hk, hi] at e; cases e
          | some j =>
            cases j with
            | negSucc j => simp only [follow, hk, hi] at e; cases e
            | ofNat i =>
              cases hr : rs[i]? with
              | none => simp only [follow, hk, hi, hr] at e; cases e
              | some r =>
                cases r with
                | none => simp only [follow, hk, hi, hr] at e; cases e
                | some r =>
                  have hv' := hv
                  cases v with
                  | ptr c =>
                    obtain ⟨l, hc, hrs⟩ := holds_rows hd
                    obtain ⟨el, hel, hh⟩ := (row_at hrs i).2 r hr
                    cases rest with
                    | nil =>
                      simp only [follow, hk, hi, hr] at e
                      cases e
                      exact ⟨_, .element hv hc hi hel, hh⟩
                    | cons k3 rest =>
                      simp only [follow, hk, hi, hr] at e
                      obtain ⟨w, hw, hdw⟩ := ih (segs := k3 :: rest) (by simp at hl ⊢; omega) hh e
                      exact ⟨w, .through hv hc hi hel hw, hdw⟩
                  | _ => cases hd

/-! ## Printing -/

theorem listing_eq (lines : List Str) : listing b!"xcore.XDataset" lines = b!"xcore.XDataset{" ++ join b!" " (sortStrs lines) ++ b!"}" := by
  simp [listing]

theorem goListing_eq (lines : List Str) : listing b!"#xcore.XDataset" lines = b!"#xcore.XDataset{" ++ join b!" " (sortStrs lines) ++ b!"}" := by
  simp [listing]

theorem mapOpt_map {α β : Type} {f : α → Option β} {g : α → β} : ∀ {l : List α}, (∀ a ∈ l, f a = some (g a)) → mapOpt f l = some (l.map g)
  | [], _ => rfl
  | a :: l, hf => by
    rw [mapOpt, hf a (by simp)]
    simp only [mapOpt_map (l := l) fun b hb => hf b (List.mem_cons_of_mem _ hb), List.map_cons]

/-- A bound for all that are related. -/
theorem uniform2 {α β : Type} {R : α → β → Prop} {P : Nat → α → β → Prop} (mono : ∀ {n m : Nat} {a : α} {b : β}, n ≤ m → P n a b → P m a b) {l : List α} {m : List β}
    (o : All2 R l m) (hp : ∀ a b, R a b → ∃ n, P n a b) : ∃ n, All2 (P n) l m := by
  induction o with
  | nil => exact ⟨0, .nil⟩
  | cons hr _ ih =>
    obtain ⟨n, hn⟩ := hp _ _ hr
    obtain ⟨k, hk⟩ := ih
    exact ⟨n + k, .cons (mono (Nat.le_add_right _ _) hn) (hk.imp fun _ _ _ q => mono (Nat.le_add_left _ _) q)⟩

theorem lines_perm {f : Val → Option Str} {g : List (Str × Data) → List Str} {s : Data → Str} (g0 : g [] = [])
    (g1 : ∀ k d fs, g ((k, d) :: fs) = (k ++ b!":" ++ s d) :: g fs) {m m' : AMap Val} {fs : Fields} (hp : List.Perm m' m)
    (o : All2 (fun (p : Str × Val) (q : Str × Data) => p.1 = q.1 ∧ f p.2 = some (s q.2)) m' fs) :
    ∃ l, mapOpt (fun p : Str × Val => (f p.2).map fun s => p.1 ++ b!":" ++ s) m = some l ∧ List.Perm l (g fs) := by
  have hall : ∀ p ∈ m', ∃ t, f p.2 = some t := by
    clear hp
    induction o with
    | nil => simp
    | cons hr _ ih =>
      intro p hp
      rcases List.mem_cons.1 hp with rfl | hp
      · exact ⟨_, hr.2⟩
      · exact ih p hp
  refine ⟨m.map fun p => p.1 ++ b!":" ++ (f p.2).getD [], mapOpt_map fun p hp' => ?_, ?_⟩
  · obtain ⟨t, ht⟩ := hall p (hp.mem_iff.2 hp')
    simp [ht]
  · refine (hp.symm.map _).trans ?_
    clear hp hall
    induction o with
    | nil => rw [g0]; exact .nil
    | @cons p q m fs hr _ ih =>
      obtain ⟨k, v⟩ := p
      obtain ⟨k', d⟩ := q
      simp only at hr
      rw [g1, List.map_cons]
      simp only [hr.2, hr.1, Option.getD_some]
      exact ih.cons _

theorem sprint_le {n m : Nat} (hl : n ≤ m) {v : Val} {s : Str} (e : sprint x n h v = some s) : sprint x m h v = some s := by
  rw [← sprint_up] at e ⊢
  exact Xcore.Dataset.sprint_le hl e

theorem goSprint_le {n m : Nat} (hl : n ≤ m) {v : Val} {s : Str} (e : goSprint x n h v = some s) : goSprint x m h v = some s := by
  rw [← goSprint_up] at e ⊢
  exact Xcore.Dataset.goSprint_le hl e

theorem rows_text {n : Nat} {l : List (Option Nat)} {rs : List (Option Fields)}
    (o : All2 (fun e r => match e, r with | none, none => True | some a, some fs => sprint x n h (.ptr a) = some (shown x (.record fs)) | _, _ => False) l rs) :
    ∃ texts, mapOpt (fun e : Option Nat => match e with | none => some b!"<nil>" | some b => sprint x n h (.ptr b)) l = some texts ∧
      ∀ i, colText i texts = shownRows x i rs := by
  induction o with
  | nil => exact ⟨[], rfl, fun i => rfl⟩
  | @cons a r l rs hr _ ih =>
    obtain ⟨ts, h1, h2⟩ := ih
    match a, r, hr with
    | none, none, _ =>
      refine ⟨b!"<nil>" :: ts, by simp only [mapOpt, h1], fun i => ?_⟩
      simp [colText, shownRows, h2]
    | some a, some fs, hr =>
      refine ⟨shown x (.record fs) :: ts, by simp only [mapOpt, h1, hr], fun i => ?_⟩
      simp [colText, shownRows, h2, shown]

/-- The text of a tree is what package fmt prints. -/
theorem holds_sprint (x : Ext) {v : Val} {d : Data} (o : Holds h v d) : ∃ n, sprint x n h v = some (shown x d) := by
  induction o with
  | @scalar v hs => exact ⟨1, by cases v <;> first | exact hs.elim | rfl⟩
  | array e => exact ⟨1, by rw [sprint]; simp only [e, shown]⟩
  | table e => exact ⟨1, by rw [sprint]; simp only [e, shown, Language.toString, listing]; simp⟩
  | record e hp hk _ ih =>
    obtain ⟨n, hn⟩ := uniform2 (P := fun n (p : Str × Val) (q : Str × Data) => p.1 = q.1 ∧ sprint x n h p.2 = some (shown x q.2))
      (fun hl q => ⟨q.1, sprint_le hl q.2⟩) (all2_fields hk ih) fun p q hr => by obtain ⟨n, hn⟩ := hr.2; exact ⟨n, hr.1, hn⟩
    obtain ⟨l, h1, h2⟩ := lines_perm (g := shownFields x) (s := shown x) (by rw [shownFields]) (fun k d fs => by rw [shownFields]) hp hn
    refine ⟨n + 1, ?_⟩
    rw [sprint]
    simp only [e, h1, shown, listing_eq, sortStrs_congr h2]
  | rows e hk _ ih =>
    obtain ⟨n, hn⟩ := uniform2 (P := fun n (e : Option Nat) (r : Option Fields) =>
        match e, r with | none, none => True | some a, some fs => sprint x n h (.ptr a) = some (shown x (.record fs)) | _, _ => False)
      (fun {n m a b} hl q => by
        match a, b, q with
        | none, none, _ => trivial
        | some a, some fs, q => exact sprint_le hl q) (all2_rows hk ih) fun a b hr => by
        match a, b, hr with
        | none, none, _ => exact ⟨0, trivial⟩
        | some a, some fs, ⟨n, hn⟩ => exact ⟨n, hn⟩
    obtain ⟨ts, h1, h2⟩ := rows_text hn
    refine ⟨n + 1, ?_⟩
    rw [sprint]
    rw [IsCollection] at e
    simp only [e, shown]
    split
    · rename_i q; cases q.symm.trans h1
    · rename_i q; cases q.symm.trans h1; rw [h2]

theorem holds_goSprint (x : Ext) {v : Val} {d : Data} (o : Holds h v d) : ∃ n, goSprint x n h v = some (dumped x d) := by
  induction o with
  | @scalar v hs => exact ⟨1, by cases v <;> first | exact hs.elim | rfl⟩
  | array e => exact ⟨1, by rw [goSprint]; simp only [e, dumped]⟩
  | table e => exact ⟨1, by rw [goSprint]; simp only [e, dumped, Language.goString, listing]; simp⟩
  | record e hp hk _ ih =>
    obtain ⟨n, hn⟩ := uniform2 (P := fun n (p : Str × Val) (q : Str × Data) => p.1 = q.1 ∧ goSprint x n h p.2 = some (dumped x q.2))
      (fun hl q => ⟨q.1, goSprint_le hl q.2⟩) (all2_fields hk ih) fun p q hr => by obtain ⟨n, hn⟩ := hr.2; exact ⟨n, hr.1, hn⟩
    obtain ⟨l, h1, h2⟩ := lines_perm (g := dumpedFields x) (s := dumped x) (by rw [dumpedFields]) (fun k d fs => by rw [dumpedFields]) hp hn
    refine ⟨n + 1, ?_⟩
    rw [goSprint]
    simp only [e, h1, dumped, goListing_eq, sortStrs_congr h2]
  | rows e hk hh _ =>
    obtain ⟨n, hn⟩ := holds_sprint x (.rows e hk hh)
    rw [IsCollection] at e
    refine ⟨n + 1, ?_⟩
    rw [goSprint]
    simp only [e, hn, dumped, shown]

theorem text_shows (x : Ext) {v : Val} {d : Data} (o : Holds h v d) : Shows x h v (text x d) := by
  by_cases hv : v = .nil
  · subst hv
    cases o
    exact Or.inl ⟨rfl, rfl⟩
  · obtain ⟨n, hn⟩ := holds_sprint x o
    have ht : text x d = shown x d := by
      unfold text
      split
      · cases o; exact absurd rfl hv
      · rfl
    rw [ht]
    rw [← sprint_up] at hn
    exact Or.inr ⟨hv, n, (Xcore.Dataset.prints_iff ..).2 hn⟩

/-! ## Layers -/

/-- The datasets in memory are those of the layers. -/
def Layers (h : Heap) (σ : Option (List (Option Nat))) (ls : Option (List (Option Fields))) : Prop :=
  match σ, ls with
  | none, none => True
  | some σ, some ls => All2 (RowHolds h) σ ls
  | _, _ => False

/-- What is found in memory and in the tree. -/
inductive Agrees (h : Heap) : Found → Answer → Prop where
  | absent : Agrees h .absent .absent
  | value {v : Val} {d : Data} : Holds h v d → Agrees h (.value v) (.value d)
  | broken : Agrees h .broken .broken

theorem value_agrees (wf : WF h) {σ : List (Option Nat)} {ls : List (Option Fields)} (o : All2 (RowHolds h) σ ls) (path : Str) :
    ∃ f, FoundAt h σ path f ∧ Agrees h f (value ls path) := by
  induction o with
  | nil => exact ⟨_, .missing, .absent⟩
  | @cons a r σ ls hr _ ih =>
    match a, r, hr with
    | none, none, _ => exact ⟨_, .nil, .broken⟩
    | some a, some fs, hr =>
      rw [value]
      cases e : follow fs (split 62 path) with
      | some d =>
        obtain ⟨v, hv, hd⟩ := follow_leads wf _ (Nat.le_refl _) hr e
        exact ⟨_, .here hv, .value hd⟩
      | none =>
        obtain ⟨f, hf, ha⟩ := ih
        refine ⟨f, .outer (fun w hw => ?_) hf, ha⟩
        obtain ⟨d, hd, _⟩ := leads_follow wf hw hr
        rw [e] at hd; cases hd

/-! ## Rendering -/

section
variable {lang : Option Language.Lang} {rec : Doc → Option (List (Option Fields)) → Out} {d : Doc}
  (hr : ∀ v b, d.find v = some b → ∀ σ ls, Layers h σ ls → Renders x lang h b .document σ (rec b ls))
include hr

theorem first_renders {σ : Option (List (Option Nat))} {ls : Option (List (Option Fields))} (o : Layers h σ ls) (names : List Str) :
    Renders x lang h d (.choose names) σ (first rec d names ls) := by
  unfold first
  cases e : names.findSome? d.find with
  | none => exact .noChoice e
  | some b =>
    obtain ⟨v, _, hv⟩ := List.exists_of_findSome?_eq_some e
    exact .chosen e (hr v b hv σ ls o)

theorem rounds_renders {id : Str} {n : Nat} {σ : List (Option Nat)} {ls : List (Option Fields)} (o : All2 (RowHolds h) σ ls) {l : List (Option Nat)}
    {rs : List (Option Fields)} (ol : All2 (RowHolds h) l rs) : ∀ i, Renders x lang h d (.loop id n i l) (some σ) (rounds rec d id n ls i rs) := by
  induction ol with
  | nil => exact fun i => .loopEnd
  | @cons e r l rs he _ ih =>
    intro i
    have hf := first_renders hr (σ := some (e :: σ)) (ls := some (r :: ls)) (.cons he o) (rangeNames id i n)
    rw [rounds]
    cases q : first rec d (rangeNames id i n) (some (r :: ls)) with
    | panic => rw [q] at hf; exact .loopPanic hf
    | text s => rw [q] at hf; exact .loop hf (ih (i + 1))

theorem reference_renders (wf : WF h) {σ : Option (List (Option Nat))} {ls : Option (List (Option Fields))} (o : Layers h σ ls) (s : Str) :
    Renders x lang h d (.elem ⟨.reference, s⟩) σ (reference x rec d ls (split 58 s)) := by
  have hne : split 58 s ≠ [] := split_ne_nil _ _
  match e : split 58 s, hne with
  | [id], _ => exact .reference (rest := []) e (by simp) (by simp) (first_renders hr o [id])
  | [id, key], _ =>
    simp only [reference]
    split
    · next hn => exact .referenceNone e hn
    · next hn =>
      match σ, ls, o with
      | none, none, _ => exact .referenceNoData e hn
      | some σ, some l, o =>
        obtain ⟨f, hf, ha⟩ := value_agrees wf o key
        generalize hv : value l key = a at ha
        simp only [hv]
        cases ha with
        | absent => exact .referenceWithout e hn hf (by simp) (by simp) (first_renders hr (σ := some σ) (ls := some l) o [id])
        | broken => exact .referenceBroken e hn hf
        | @value v dt hd =>
          have other : (∀ fs, dt ≠ .record fs) → Renders x lang h d (.elem ⟨.reference, s⟩) (some σ) (first rec d [id] (some l)) := fun q =>
            .referenceWithout e hn hf (by simp) (fun w e => by cases e; exact holds_not_dataset hd q) (first_renders hr (σ := some σ) (ls := some l) o [id])
          cases dt with
          | record fs =>
            obtain ⟨b, rfl, hb⟩ := holds_isDataset hd
            exact .referenceWith e hn hf hb (first_renders hr (σ := some (some b :: σ)) (ls := some (some fs :: l)) (.cons hd o) [id])
          | _ => exact other (by simp)
  | [any, key, pre], _ =>
    simp only [reference]
    match σ, ls, o with
    | none, none, _ => exact .referenceValueNoData e
    | some σ, some l, o =>
      obtain ⟨f, hf, ha⟩ := value_agrees wf o key
      generalize hv : value l key = a at ha
      simp only [hv]
      cases ha with
      | absent =>
        refine .referenceValue e hf .absent ?_
        have := first_renders hr (σ := some σ) (ls := some l) o [pre ++ [], pre]
        have q : first rec d [pre ++ [], pre] (some l) = first rec d [pre] (some l) := by
          unfold first
          simp only [List.append_nil, List.findSome?]
          cases d.find pre <;> rfl
        rw [q] at this
        exact this
      | broken => exact .referenceValueBroken e hf
      | value hd => exact .referenceValue e hf (.value (text_shows x hd)) (first_renders hr (σ := some σ) (ls := some l) o _)
  | id :: b :: c :: f :: rest, _ => exact .reference (rest := b :: c :: f :: rest) e (by simp) (by simp) (first_renders hr o [id])

theorem range_renders (wf : WF h) {σ : Option (List (Option Nat))} {ls : Option (List (Option Fields))} (o : Layers h σ ls) {s key id : Str} (ht : Target s key id) :
    Renders x lang h d (.elem ⟨.range, s⟩) σ (range rec d ls key id) := by
  unfold range
  split
  · next hn => exact .rangeNothing ht (Or.inl hn)
  · next hn =>
    match σ, ls, o with
    | none, none, _ => exact .rangeNothing ht (Or.inr rfl)
    | some σ, some l, o =>
      obtain ⟨f, hf, ha⟩ := value_agrees wf o key
      generalize hv : value l key = a at ha
      simp only [hv]
      cases ha with
      | absent => exact .rangeAbsent ht hn hf (first_renders hr (σ := some σ) (ls := some l) o _)
      | broken => exact .rangeBroken ht hn hf
      | @value v dt hd =>
        have other : (∀ rs, dt ≠ .rows rs) → Renders x lang h d (.elem ⟨.range, s⟩) (some σ) .panic := fun q =>
          .rangeOther ht hn hf (holds_not_collection hd q)
        cases dt with
        | rows rs =>
          cases v with
          | ptr c =>
            obtain ⟨li, hc, hrs⟩ := holds_rows hd
            have := rounds_renders hr (id := id) (n := rs.length) o hrs 0
            rw [← hrs.length] at this
            show Renders x lang h d _ (some σ) (rounds rec d id rs.length l 0 rs)
            rw [← hrs.length]
            exact .range ht hn hf hc this
          | _ => cases hd
        | _ => exact other (by simp)

theorem condition_renders (wf : WF h) {σ : Option (List (Option Nat))} {ls : Option (List (Option Fields))} (o : Layers h σ ls) {s key id : Str} (ht : Target s key id) :
    Renders x lang h d (.elem ⟨.condition, s⟩) σ (condition x rec d ls key id) := by
  unfold condition
  match σ, ls, o with
  | none, none, _ => exact .conditionNoData
  | some σ, some l, o =>
    obtain ⟨f, hf, ha⟩ := value_agrees wf o key
    generalize hv : value l key = a at ha
    simp only [hv]
    cases ha with
    | absent => exact .conditionAbsent ht hf
    | broken => exact .conditionBroken ht hf
    | @value v dt hd =>
      have other : (∀ fs, dt ≠ .record fs) → Renders x lang h d (.elem ⟨.condition, s⟩) (some σ)
          (if d.find id = none ∨ text x dt = [] then .text [] else first rec d [id ++ b!"." ++ text x dt, id] (some l)) := by
        intro q
        have hs := text_shows x hd
        split
        · next hc =>
          by_cases hn : d.find id = none
          · exact .conditionNothing ht hf (by simp) hn
          · rcases hc with hc | hc
            · exact absurd hc hn
            · rw [hc] at hs; exact .conditionEmpty ht hn hf hs
        · next hc =>
          have hc := not_or.1 hc
          exact .condition ht hc.1 hf (holds_not_dataset hd q) hs hc.2 (first_renders hr (σ := some σ) (ls := some l) o _)
      cases dt with
      | record fs =>
        obtain ⟨b, rfl, hb⟩ := holds_isDataset hd
        exact .conditionDataset ht hf ⟨b, rfl, hb⟩
      | _ => exact other (by simp)

omit hr in
theorem dump_renders {σ : Option (List (Option Nat))} {ls : Option (List (Option Fields))} (o : Layers h σ ls) (s : Str) :
    Renders x lang h d (.elem ⟨.dump, s⟩) σ (if s = b!"dump" ∨ s = b!"list" then
      match ls.bind List.getLast? with
      | some (some fs) => .text (dumped x (.record fs))
      | _ => .text []
    else .text []) := by
  split
  · next hs =>
    match σ, ls, o with
    | none, none, _ => exact .dumpNothing (Or.inr rfl)
    | some σ, some l, o =>
      have last : (σ.getLast? = none ∧ l.getLast? = none) ∨ ∃ e r, σ.getLast? = some e ∧ l.getLast? = some r ∧ RowHolds h e r := by
        have o' : All2 (RowHolds h) σ l := o
        clear hs o
        induction o' with
        | nil => exact Or.inl ⟨rfl, rfl⟩
        | @cons e r σ l he _ ih =>
          right
          rw [List.getLast?_cons, List.getLast?_cons]
          rcases ih with ⟨h1, h2⟩ | ⟨e', r', h1, h2, h3⟩
          · rw [h1, h2]; exact ⟨e, r, rfl, rfl, he⟩
          · rw [h1, h2]; exact ⟨e', r', rfl, rfl, h3⟩
      simp only [Option.bind_some]
      rcases last with ⟨h1, h2⟩ | ⟨e, r, h1, h2, h3⟩
      · rw [h2]; exact .dumpNil (by rw [h1]; rfl)
      · rw [h2]
        match e, r, h3 with
        | none, none, _ => exact .dumpNil (by rw [h1]; rfl)
        | some a, some fs, h3 =>
          obtain ⟨n, hn⟩ := holds_goSprint x (show Holds h (.ptr a) (.record fs) from h3)
          rw [← goSprint_up] at hn
          exact .dump (n := n) hs h1 ((Xcore.Dataset.goPrints_iff ..).2 hn)
  · next hs => exact .dumpNothing (Or.inl (not_or.1 hs))

theorem element_renders (wf : WF h) {σ : Option (List (Option Nat))} {ls : Option (List (Option Fields))} (o : Layers h σ ls) (p : Param) :
    Renders x lang h d (.elem p) σ (element x lang rec d ls p) := by
  obtain ⟨k, s⟩ := p
  have target : ∀ (f : Str → Str → Out) (k : Kind), (∀ key id, Target s key id → Renders x lang h d (.elem ⟨k, s⟩) σ (f key id)) →
      Renders x lang h d (.elem ⟨k, s⟩) σ (match split 58 s with | [] => .text [] | [key] => f key key | key :: id :: _ => f key id) := by
    intro f k hf
    have hne : split 58 s ≠ [] := split_ne_nil _ _
    match e : split 58 s, hne with
    | [key], _ => exact hf key key (Or.inl ⟨e, rfl⟩)
    | key :: id :: rest, _ => exact hf key id (Or.inr ⟨rest, e⟩)
  cases k with
  | string => exact .text
  | comment => exact .comment
  | language => exact .language
  | reference => exact reference_renders hr wf o s
  | range =>
    have := target (range rec d ls) .range fun key id ht => range_renders hr wf o ht
    simp only [element]
    split <;> rename_i q <;> simp only [q] at this <;> exact this
  | condition =>
    have := target (condition x rec d ls) .condition fun key id ht => condition_renders hr wf o ht
    simp only [element]
    split <;> rename_i q <;> simp only [q] at this <;> exact this
  | dump => exact dump_renders o s
  | «variable» =>
    simp only [element]
    match σ, ls, o with
    | none, none, _ => exact .variableNoData
    | some σ, some l, o =>
      obtain ⟨f, hf, ha⟩ := value_agrees wf o s
      generalize hv : value l s = a at ha
      simp only [hv]
      cases ha with
      | absent => exact .variable hf .absent
      | broken => exact .variable hf .broken
      | value hd => exact .variable hf (.value (text_shows x hd))
  | _ => exact .unknown (by simp [Foreign])

theorem elements_render (wf : WF h) {σ : Option (List (Option Nat))} {ls : Option (List (Option Fields))} (o : Layers h σ ls) : ∀ l : List Param,
    Renders x lang h d (.body l) σ (elements (element x lang rec d ls) l)
  | [] => .nil
  | p :: l => by
    have he := element_renders hr wf o p
    have ih := elements_render wf o l
    rw [elements]
    cases q : element x lang rec d ls p with
    | panic => rw [q] at he; exact .consPanic he
    | text s => rw [q] at he; exact .cons he ih

end

theorem page_renders (wf : WF h) (lang : Option Language.Lang) : ∀ (n : Nat) (d : Doc), nesting d < n → ∀ σ ls, Layers h σ ls →
    Renders x lang h d .document σ (page x lang n d ls)
  | 0, _, hn, _, _, _ => absurd hn (by omega)
  | n + 1, d, hn, σ, ls, o => by
    refine .document rfl (elements_render (fun v b hv σ ls o => page_renders wf lang n b ?_ σ ls o) wf o _)
    have := find_nesting hv
    omega

theorem langOf_holds (wf : WF h) {a : Nat} {fs : Fields} (o : Holds h (.ptr a) (.record fs)) : LangOf h a (langOf fs) := by
  unfold langOf
  split
  · next l e =>
    obtain ⟨v, hv, hd⟩ := lookup_entry wf o e
    cases hd with
    | table e' => exact .table hv e'
  · next hn =>
    refine .none fun b l he hl => ?_
    obtain ⟨dt, hd, hh⟩ := entry_lookup wf o he
    cases hh with
    | scalar hs => exact hs.elim
    | table e' => exact hn _ hd
    | record e' => rw [hl] at e'; cases e'
    | rows e' => rw [IsCollection, hl] at e'; cases e'

theorem render_executes (wf : WF h) {data : Option Nat} {fs : Option Fields} (o : Content h data fs) (d : Doc) : Executes x d h data (render x d fs) := by
  match data, fs, o with
  | none, none, _ => exact .nil (page_renders wf _ _ d (Nat.lt_succ_self _) none none trivial)
  | some a, some fs, o => exact .data (langOf_holds wf o) (page_renders wf _ _ d (Nat.lt_succ_self _) (some [some a]) (some [some fs]) (.cons o .nil))

theorem new_compiled {th th' : THeap} {t : Nat} {s : Str} {d : Doc} (hm : Means s d) (e : newFromString th s = (th', some t)) : Compiled th' t d [] := by
  obtain ⟨hp, l, h, hd⟩ := hm
  have hd : lex s = d.tokens := by rw [lex_eq h, hd]
  obtain ⟨th2, l, sb, e1, e2, e3, e4, e5, e6⟩ := compile_doc (th := th ++ [⟨[], none, none⟩]) (t := th.length) (o := ⟨[], none, none⟩)
    (by simp) hp hd
  have : newFromString th s = (th2, some th.length) := by simp only [newFromString, newTpl, loadString, e1]
  rw [this] at e
  cases e
  exact ⟨_, l, e4, rfl, e6, by simpa using e5⟩

/-! ## Every memory without cycles is a tree -/

theorem fields_exist {m : AMap Val} (hm : ∀ p ∈ m, ∃ d, Holds h p.2 d) : ∃ fs : Fields, fs.map Prod.fst = m.map Prod.fst ∧
    ∀ (i : Nat) (k k' : Str) (v : Val) (d : Data), m[i]? = some (k, v) → fs[i]? = some (k', d) → Holds h v d := by
  induction m with
  | nil => exact ⟨[], rfl, by simp⟩
  | cons p m ih =>
    obtain ⟨d, hd⟩ := hm p (by simp)
    obtain ⟨fs, h1, h2⟩ := ih fun q hq => hm q (List.mem_cons_of_mem _ hq)
    refine ⟨(p.1, d) :: fs, by simp [h1], fun i k k' v d' e e' => ?_⟩
    cases i with
    | zero => simp at e e'; obtain ⟨rfl, rfl⟩ := e'; rw [e] at hd; exact hd
    | succ i => exact h2 i k k' v d' e e'

theorem rows_exist {l : List (Option Nat)} (hl : ∀ a, some a ∈ l → ∃ fs, Holds h (.ptr a) (.record fs)) : ∃ rs : List (Option Fields),
    l.map Option.isSome = rs.map Option.isSome ∧
    ∀ (i : Nat) (a : Nat) (fs : Fields), l[i]? = some (some a) → rs[i]? = some (some fs) → Holds h (.ptr a) (.record fs) := by
  induction l with
  | nil => exact ⟨[], rfl, by simp⟩
  | cons e l ih =>
    obtain ⟨rs, h1, h2⟩ := ih fun a ha => hl a (List.mem_cons_of_mem _ ha)
    cases e with
    | none =>
      refine ⟨none :: rs, by simp [h1], fun i a fs e e' => ?_⟩
      cases i with
      | zero => simp at e
      | succ i => exact h2 i a fs e e'
    | some b =>
      obtain ⟨gs, hg⟩ := hl b (by simp)
      refine ⟨some gs :: rs, by simp [h1], fun i a fs e e' => ?_⟩
      cases i with
      | zero => simp at e e'; subst e e'; exact hg
      | succ i => exact h2 i a fs e e'

/-- What can be printed has a content. -/
theorem holds_of_sprint (wf : WF h) (hp : Pointers h) : ∀ (n : Nat) {v : Val} {s : Str}, Valid h v → (∀ b l, v = .ptr b → h[b]? ≠ some (.slice l)) →
    sprint x n h v = some s → ∃ d, Holds h v d ∧ ∀ a, v = .ptr a → IsDataset h a → ∃ fs, d = .record fs
  | 0, _, _, _, _, e => by cases e
  | n + 1, v, s, hv, ht, e => by
    have single : Single v → ∃ d, Holds h v d ∧ ∀ a, v = .ptr a → IsDataset h a → ∃ fs, d = .record fs := fun q =>
      ⟨_, .scalar q, fun a e => by rw [e] at q; exact q.elim⟩
    cases v with
    | slice k a =>
      obtain ⟨l, hl⟩ := hv
      exact ⟨_, .array hl, fun a e => by cases e⟩
    | ptr a =>
      have ha : h[a]? = some h[a] := List.getElem?_eq_getElem hv
      rw [sprint] at e
      cases ho : h[a] with
      | slice l => rw [ho] at ha; exact absurd ha (ht a l rfl)
      | lang l => rw [ho] at ha; exact ⟨_, .table ha, fun a e ⟨m, hm⟩ => by cases e; rw [ha] at hm; cases hm⟩
      | ds m =>
        rw [ho] at ha
        simp only [ha] at e
        split at e
        · cases e
        · next l hl =>
          have hm := Xcore.Dataset.mapOpt_mem hl
          obtain ⟨fs, h1, h2⟩ := fields_exist (h := h) (m := m) fun p hp' => by
            obtain ⟨t, ht⟩ := hm p hp'
            cases hs : sprint x n h p.2 with
            | none => rw [hs] at ht; cases ht
            | some s =>
              obtain ⟨d, hd, _⟩ := holds_of_sprint wf hp n (wf.valid a m p.1 p.2 ha hp') (fun b l e => hp a m p.1 b l ha (by rw [← e]; exact hp')) hs
              exact ⟨d, hd⟩
          exact ⟨_, .record ha (.refl _) h1 h2, fun _ _ _ => ⟨fs, rfl⟩⟩
      | col l =>
        rw [ho] at ha
        simp only [ha] at e
        split at e
        · cases e
        · next ts hl =>
          have hm := Xcore.Dataset.mapOpt_mem hl
          obtain ⟨rs, h1, h2⟩ := rows_exist (h := h) (l := l) fun b hb => by
            obtain ⟨t, hs⟩ := hm (some b) hb
            have hd := wf.elem a l b ha hb
            obtain ⟨m', hm'⟩ := hd
            obtain ⟨d, hd, he⟩ := holds_of_sprint wf hp n (v := .ptr b) (Xcore.Dataset.lt_of_getElem? hm') (fun c l e => by cases e; rw [hm']; simp) hs
            obtain ⟨fs, rfl⟩ := he b rfl ⟨m', hm'⟩
            exact ⟨fs, hd⟩
          exact ⟨_, .rows ha h1 h2, fun a' e ⟨m, hm⟩ => by cases e; rw [ha] at hm; cases hm⟩
    | _ => exact single trivial

theorem content_exists (wf : WF h) (hp : Pointers h) {a : Nat} (hd : IsDataset h a) (ac : Acyclic h a) : ∃ fs, Holds h (.ptr a) (.record fs) := by
  obtain ⟨m, hm⟩ := hd
  have hlt := Xcore.Dataset.lt_of_getElem? hm
  obtain ⟨⟨s, hs⟩, _⟩ := sprint_ends ⟨fun _ => [], fun _ => [], fun _ => [], fun _ => [], fun _ => [], fun _ _ => [], fun _ => 0⟩ wf hlt ac
    (Nat.lt_succ_self _)
  obtain ⟨d, h1, h2⟩ := holds_of_sprint wf hp _ (v := .ptr a) hlt (fun b l e => by cases e; rw [hm]; simp) hs
  obtain ⟨fs, rfl⟩ := h2 a rfl ⟨m, hm⟩
  exact ⟨fs, h1⟩

end Xcore.V1.Page
