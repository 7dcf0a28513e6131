import Verif.Proof.V1.DataLook

/-! An entry that no element looks up does not matter: version 1 (C117). -/

namespace Xcore.V1.Template

open Xcore.Template (Kind Param parts Target rangeNames)
open Xcore.Dataset (Ext Val Prints GoPrints)
open Xcore.V1.Dataset

section

variable {h h' : Heap} {b : Nat} {k : Str}

theorem DifferOnlyIn.flip (d : DifferOnlyIn h h' b k) : DifferOnlyIn h' h b k :=
  ⟨d.dataset', d.dataset, fun k' v n => (d.entries k' v n).symm, fun c n => (d.others c n).symm⟩

theorem DifferOnlyIn.entry (d : DifferOnlyIn h h' b k) {a : Nat} {s : Str} {v : Val} (n : s ≠ k) (e : Entry h a s v) : Entry h' a s v := by
  by_cases hb : a = b
  · subst hb; exact (d.entries s v n).1 e
  · obtain ⟨m, e, g⟩ := e
    exact ⟨m, by rw [← d.others a hb]; exact e, g⟩

theorem DifferOnlyIn.ds (d : DifferOnlyIn h h' b k) {a : Nat} (e : IsDataset h a) : IsDataset h' a := by
  by_cases hb : a = b
  · subst hb; exact d.dataset'
  · obtain ⟨m, e⟩ := e
    exact ⟨m, by rw [← d.others a hb]; exact e⟩

theorem DifferOnlyIn.col (d : DifferOnlyIn h h' b k) {a : Nat} {l : List (Option Nat)} (e : IsCollection h a l) : IsCollection h' a l := by
  by_cases hb : a = b
  · subst hb; exact (ds_not_col d.dataset e).elim
  · rw [IsCollection, ← d.others a hb]; exact e

theorem DifferOnlyIn.plain (d : DifferOnlyIn h h' b k) {v : Val} (p : Plain h v) : Plain h' v :=
  fun a e => ⟨fun q => (p a e).1 (d.flip.ds q), fun l q => (p a e).2 l (d.flip.col q)⟩

theorem DifferOnlyIn.leads (d : DifferOnlyIn h h' b k) {a : Nat} {segs : List Str} {v : Val} (q : Leads h a segs v) :
    (∀ before s rest, segs = before ++ s :: rest → k ≠ s ∧ k ≠ join b!">" (s :: rest)) → Leads h' a segs v := by
  induction q with
  | entry e => intro n; exact .entry (d.entry (n [] _ [] rfl).1.symm e)
  | @dataset a b s s2 rest v e ds _ ih =>
    intro n
    exact .dataset (d.entry (n [] _ _ rfl).1.symm e) (d.ds ds) (ih fun before t r eq => n (s :: before) t r (by rw [eq]; rfl))
  | element e c i g => intro n; exact .element (d.entry (n [] _ _ rfl).1.symm e) (d.col c) i g
  | @through a c e s s2 r rest l i v en c i g _ ih =>
    intro n
    exact .through (d.entry (n [] _ _ rfl).1.symm en) (d.col c) i g (ih fun before t r eq => n (s :: s2 :: before) t r (by rw [eq]; rfl))
  | literal e p f => intro n; exact .literal (d.entry (n [] _ _ rfl).1.symm e) (d.plain p) (d.entry (n [] _ _ rfl).2.symm f)

theorem DifferOnlyIn.shows (d : DifferOnlyIn h h' b k) {x : Ext} {v : Val} (p : Plain h v) (wf : WF h) (hv : Valid h v) {s : Str} (q : Shows x h v s) : Shows x h' v s := by
  rcases q with q | ⟨nn, n, q⟩
  · exact Or.inl q
  · refine Or.inr ⟨nn, n, ?_⟩
    cases n with
    | zero => exact q
    | succ n =>
      have same : ∀ c : Nat, c ≠ b → (up h)[c]? = (up h')[c]? := fun c hc => by simp only [up, List.getElem?_map, d.others c hc]
      cases v with
      | ptr c =>
        have hc : c ≠ b := fun e => (p c rfl).1 (by rw [e]; exact d.dataset)
        have up_c : (up h)[c]? = h[c]?.map Obj.up := by simp [up]
        simp only [Prints] at q ⊢
        rw [← same c hc]
        cases ho : h[c]? with
        | none => simp only [up_c, ho, Option.map_none] at q ⊢; exact q
        | some o =>
          cases o with
          | ds m => exact absurd ⟨m, ho⟩ (p c rfl).1
          | col l => exact absurd ho ((p c rfl).2 l)
          | lang l => simp only [up_c, ho, Option.map_some, Obj.up] at q ⊢; exact q
          | slice l => simp only [up_c, ho, Option.map_some, Obj.up] at q ⊢; exact q
      | slice kd c =>
        have hc : c ≠ b := by
          intro e
          obtain ⟨m, em⟩ := d.dataset
          obtain ⟨l, el⟩ := hv
          rw [e, em] at el
          cases el
        simp only [Prints] at q ⊢
        rw [← same c hc]
        exact q
      | _ => simpa only [Prints] using q

theorem leads_valid (wf : WF h) {a : Nat} {segs : List Str} {v : Val} (q : Leads h a segs v) : Valid h v := by
  have of : ∀ {a s v}, Entry h a s v → Valid h v := fun ⟨m, e, g⟩ => wf.valid _ m _ _ e (AMap.mem_of_get g)
  induction q with
  | entry e => exact of e
  | dataset _ _ _ ih => exact ih
  | element _ c _ g =>
    obtain ⟨m, e⟩ := wf.elem _ _ _ c (List.mem_of_getElem? g)
    exact (List.getElem?_eq_some_iff.1 e).1
  | through _ _ _ _ _ ih => exact ih
  | literal _ _ f => exact of f

theorem rows_refl (l : List (Option Nat)) : RowsTheSame Eq l l := by
  induction l with
  | nil => exact .nil
  | cons a l ih => cases a with
    | none => exact .none ih
    | some a => exact .some rfl ih

theorem DifferOnlyIn.used (d : DifferOnlyIn h h' b k) (wf : WF h) (wf' : WF h') {x : Ext} {v : Val} (hv : Valid h v) (hv' : Valid h' v) {way : Way}
    (hp : way = .text ∨ way = .test → Plain h v) : UsedTheSame x h h' Eq way v v := by
  have sd : ValIsDataset h v → ValIsDataset h' v := fun ⟨a, e, q⟩ => ⟨a, e, d.ds q⟩
  have sd' : ValIsDataset h' v → ValIsDataset h v := fun ⟨a, e, q⟩ => ⟨a, e, d.flip.ds q⟩
  have sh : Plain h v → ∀ s, Shows x h v s ↔ Shows x h' v s := fun p s => ⟨d.shows p wf hv, d.flip.shows (d.plain p) wf' hv'⟩
  cases way with
  | text => exact .text (sh (hp (Or.inl rfl)))
  | «open» =>
    by_cases q : ValIsDataset h v
    · obtain ⟨a, rfl, q⟩ := q
      exact .opened q (d.ds q) rfl
    · exact .notOpened q fun r => q (sd' r)
  | loop =>
    by_cases q : ValIsCollection h v
    · obtain ⟨c, l, rfl, q⟩ := q
      exact .loop q (d.col q) (rows_refl l)
    · exact .noLoop q fun ⟨c, l, e, r⟩ => q ⟨c, l, e, d.flip.col r⟩
  | test =>
    have p := hp (Or.inr rfl)
    refine .testText (fun ⟨a, e, q⟩ => (p a e).1 q) (fun r => ?_) (sh p)
    obtain ⟨a, e, q⟩ := sd' r
    exact (p a e).1 q

theorem DifferOnlyIn.same (d : DifferOnlyIn h h' b k) (wf : WF h) (wf' : WF h') (x : Ext) {E : Param → Prop}
    (hn : ∀ p way key, E p → LooksUp p way key → ¬ AsksFor key k)
    (hp : ∀ p way key a v, E p → LooksUp p way key → way = .text ∨ way = .test → Leads h a (split 62 key) v → Plain h v) : DataTheSame x E h h' Eq := by
  rintro a _ p way key rfl e hk
  have asks : ∀ before s rest, split 62 key = before ++ s :: rest → k ≠ s ∧ k ≠ join b!">" (s :: rest) := fun before s rest eq =>
    ⟨fun q => hn p way key e hk ⟨before, s, rest, eq, Or.inl q⟩, fun q => hn p way key e hk ⟨before, s, rest, eq, Or.inr q⟩⟩
  by_cases q : ∃ v, Leads h a (split 62 key) v
  · obtain ⟨v, q⟩ := q
    have q' := d.leads q asks
    exact Or.inr ⟨v, v, q, q', d.used wf wf' (leads_valid wf q) (leads_valid wf' q') fun w => hp p way key a v e hk w q⟩
  · exact Or.inl ⟨fun v r => q ⟨v, r⟩, fun v r => q ⟨v, d.flip.leads r asks⟩⟩

theorem lang_unique {h : Heap} {a : Nat} {l l' : Option Language.Lang} (q : LangOf h a l) (q' : LangOf h a l') : l = l' := by
  cases q with
  | table e g => cases q' with
    | table e' g' => cases entry_unique e e'; rw [g] at g'; cases g'; rfl
    | none n => exact absurd g (n _ _ e)
  | none n => cases q' with
    | table e' g' => exact absurd g' (n _ _ e')
    | none _ => rfl

theorem DifferOnlyIn.lang (d : DifferOnlyIn h h' b k) (hk : k ≠ b!"#") {a : Nat} {l : Option Language.Lang} (q : LangOf h a l) : LangOf h' a l := by
  have obj : ∀ {h h' : Heap}, DifferOnlyIn h h' b k → ∀ (c : Nat) (t : Language.Lang), h[c]? = some (.lang t) → h'[c]? = some (.lang t) := by
    intro h h' d c t e
    by_cases hb : c = b
    · subst hb
      obtain ⟨m, em⟩ := d.dataset
      rw [em] at e
      cases e
    · rw [← d.others c hb]; exact e
  cases q with
  | table e g => exact .table (d.entry hk.symm e) (obj d _ _ g)
  | none n => exact .none fun c t e g => n c t (d.flip.entry hk.symm e) (obj d.flip _ _ g)

theorem DifferOnlyIn.root (d : DifferOnlyIn h h' b k) (x : Ext) {E : Param → Prop} (hl : k ≠ b!"#" ∨ ∀ id, ¬ E ⟨.language, id⟩)
    (hd : ∀ s, E ⟨.dump, s⟩ → s ≠ b!"dump" ∧ s ≠ b!"list") (a : Nat) : RootTheSame x E h h' a a where
  lang l l' id q q' e := by
    rcases hl with hk | n
    · rw [lang_unique (d.lang hk q) q']
    · exact absurd e (n id)
  dump s e hs := by
    have := hd s e
    rcases hs with hs | hs
    · exact absurd hs this.1
    · exact absurd hs this.2

end

theorem differ_upd {h : Heap} {b : Nat} {k : Str} {m m' : AMap Val} (e : h[b]? = some (.ds m)) (g : ∀ k', k' ≠ k → m'.get k' = m.get k') :
    DifferOnlyIn h (h.set b (.ds m')) b k := by
  have lt := (List.getElem?_eq_some_iff.1 e).1
  have e' : (h.set b (.ds m'))[b]? = some (.ds m') := by simp [lt]
  refine ⟨⟨m, e⟩, ⟨m', e'⟩, fun k' v n => ?_, fun c n => by rw [List.getElem?_set_ne (Ne.symm n)]⟩
  constructor
  · rintro ⟨q, eq, gq⟩
    rw [e] at eq; cases eq
    exact ⟨m', e', by rw [g k' n]; exact gq⟩
  · rintro ⟨q, eq, gq⟩
    rw [e'] at eq; cases eq
    exact ⟨m, e, by rw [← g k' n]; exact gq⟩

theorem differ_set {h : Heap} {b : Nat} (hb : IsDataset h b) (k : Str) (v : Val) : DifferOnlyIn h (set h b k v) b k := by
  obtain ⟨m, e⟩ := hb
  refine differ_upd e fun k' n => ?_
  simp only [entries, e]
  rw [AMap.get_set, if_neg n]

theorem differ_del {h : Heap} {b : Nat} (hb : IsDataset h b) (k : Str) : DifferOnlyIn h (del h b k) b k := by
  obtain ⟨m, e⟩ := hb
  refine differ_upd e fun k' n => ?_
  simp only [entries, e]
  rw [AMap.get_del, if_neg n]

end Xcore.V1.Template
