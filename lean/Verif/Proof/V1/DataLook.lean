import Verif.Spec.V1.DataLook
import Verif.Proof.V1.TemplateLook

/-! Data that look the same to a template give the same page: version 1 (C117). -/

namespace Xcore.V1.Template

open Xcore.Template (Kind Param parts Target rangeNames)
open Xcore.Dataset (Ext Val GoPrints)
open Xcore.V1.Dataset

theorem entry_unique {h : Heap} {a : Nat} {k : Str} {v w : Val} (q : Entry h a k v) (q' : Entry h a k w) : v = w := by
  obtain ⟨m, e, g⟩ := q
  obtain ⟨m', e', g'⟩ := q'
  rw [e] at e'
  cases e'
  rw [g] at g'
  exact Option.some.inj g'

theorem ds_not_col {h : Heap} {a : Nat} {l : List (Option Nat)} (q : IsDataset h a) (q' : IsCollection h a l) : False := by
  obtain ⟨m, e⟩ := q
  rw [IsCollection, e] at q'
  cases q'

theorem col_unique {h : Heap} {a : Nat} {l l' : List (Option Nat)} (q : IsCollection h a l) (q' : IsCollection h a l') : l = l' := by
  rw [IsCollection, q] at q'
  cases q'
  rfl

/-- A path leads to one value. -/
theorem leads_unique {h : Heap} {a : Nat} {l : List Str} {v : Val} (q : Leads h a l v) : ∀ {w}, Leads h a l w → v = w := by
  induction q with
  | entry e => intro w q'; cases q' with | entry e' => exact entry_unique e e'
  | dataset e d _ ih =>
    intro w q'
    cases q' with
    | dataset e' d' q' => cases entry_unique e e'; exact ih q'
    | element e' c' => cases entry_unique e e'; exact (ds_not_col d c').elim
    | through e' c' => cases entry_unique e e'; exact (ds_not_col d c').elim
    | literal e' p' => cases entry_unique e e'; exact absurd d (p' _ rfl).1
  | element e c i g =>
    intro w q'
    cases q' with
    | dataset e' d' q' => cases entry_unique e e'; exact (ds_not_col d' c).elim
    | element e' c' i' g' =>
      cases entry_unique e e'
      cases col_unique c c'
      rw [i] at i'
      have := Int.ofNat.inj (Option.some.inj i')
      subst this
      rw [g] at g'
      cases g'
      rfl
    | literal e' p' => cases entry_unique e e'; exact absurd c ((p' _ rfl).2 _)
  | through e c i g _ ih =>
    intro w q'
    cases q' with
    | dataset e' d' q' => cases entry_unique e e'; exact (ds_not_col d' c).elim
    | through e' c' i' g' q' =>
      cases entry_unique e e'
      cases col_unique c c'
      rw [i] at i'
      have := Int.ofNat.inj (Option.some.inj i')
      subst this
      rw [g] at g'
      cases g'
      exact ih q'
    | literal e' p' => cases entry_unique e e'; exact absurd c ((p' _ rfl).2 _)
  | literal e p f =>
    intro w q'
    cases q' with
    | dataset e' d' q' => cases entry_unique e e'; exact absurd d' (p _ rfl).1
    | element e' c' => cases entry_unique e e'; exact absurd c' ((p _ rfl).2 _)
    | through e' c' => cases entry_unique e e'; exact absurd c' ((p _ rfl).2 _)
    | literal e' p' f' => exact entry_unique f f'

theorem RowsTheSame.flip {R : Nat → Nat → Prop} {l l' : List (Option Nat)} (r : RowsTheSame R l l') : RowsTheSame (fun a b => R b a) l' l := by
  induction r with
  | nil => exact .nil
  | none _ ih => exact .none ih
  | some h _ ih => exact .some h ih

theorem RowsTheSame.length {R : Nat → Nat → Prop} {l l' : List (Option Nat)} (r : RowsTheSame R l l') : l.length = l'.length := by
  induction r with
  | nil => rfl
  | none _ ih => simp [ih]
  | some h _ ih => simp [ih]

section

variable {x : Ext} {E : Param → Prop} {h h' : Heap} {R : Nat → Nat → Prop}

theorem UsedTheSame.flip {way : Way} {v v' : Val} (u : UsedTheSame x h h' R way v v') : UsedTheSame x h' h (fun a b => R b a) way v' v := by
  cases u with
  | text q => exact .text fun s => (q s).symm
  | opened a b r => exact .opened b a r
  | notOpened a b => exact .notOpened b a
  | loop a b r => exact .loop b a r.flip
  | noLoop a b => exact .noLoop b a
  | testDataset a b => exact .testDataset b a
  | testText a b q => exact .testText b a fun s => (q s).symm

theorem DataTheSame.flip (hd : DataTheSame x E h h' R) : DataTheSame x E h' h (fun a b => R b a) := by
  intro a a' p way key r e hk
  rcases hd a' a p way key r e hk with ⟨q, q'⟩ | ⟨v, v', q, q', u⟩
  · exact Or.inl ⟨q', q⟩
  · exact Or.inr ⟨v', v, q', q, u.flip⟩

theorem RootTheSame.flip {a a' : Nat} (hr : RootTheSame x E h h' a a') : RootTheSame x E h' h a' a where
  lang l l' id q q' e := (hr.lang l' l id q' q e).symm
  dump s e hs t := (hr.dump s e hs t).symm

/-- The same has been found. -/
inductive FoundTheSame (x : Ext) (h h' : Heap) (R : Nat → Nat → Prop) (way : Way) : Found → Found → Prop where
  | absent : FoundTheSame x h h' R way .absent .absent
  | broken : FoundTheSame x h h' R way .broken .broken
  | value {v v'} : UsedTheSame x h h' R way v v' → FoundTheSame x h h' R way (.value v) (.value v')

theorem found_same (hd : DataTheSame x E h h' R) {p : Param} {way : Way} {key : Str} (e : E p) (hk : LooksUp p way key) {σ : List (Option Nat)} {f : Found}
    (q : FoundAt h σ key f) : ∀ σ', RowsTheSame R σ σ' → ∃ f', FoundAt h' σ' key f' ∧ FoundTheSame x h h' R way f f' := by
  induction q with
  | missing => intro σ' r; cases r; exact ⟨_, .missing, .absent⟩
  | nil => intro σ' r; cases r; exact ⟨_, .nil, .broken⟩
  | here q =>
    intro σ' r
    cases r with
    | some ra _ =>
      rcases hd _ _ p way _ ra e hk with ⟨n, -⟩ | ⟨v, v', q1, q2, u⟩
      · exact absurd q (n _)
      · cases leads_unique q q1
        exact ⟨_, .here q2, .value u⟩
  | outer n _ ih =>
    intro σ' r
    cases r with
    | some ra rs =>
      rcases hd _ _ p way _ ra e hk with ⟨-, n'⟩ | ⟨v, v', q1, q2, u⟩
      · obtain ⟨f', q, s⟩ := ih hk _ rs
        exact ⟨f', .outer n' q, s⟩
      · exact absurd q1 (n _)

/-- The datasets, innermost first, side by side; the outermost are those given to `Execute`. -/
structure ScopesTheSame (R : Nat → Nat → Prop) (a a' : Nat) (σ σ' : List (Option Nat)) : Prop where
  rows : RowsTheSame R σ σ'
  last : σ.getLast? = some (some a)
  last' : σ'.getLast? = some (some a')

theorem last_cons {α : Type} {l : List α} {y z : α} (e : l.getLast? = some y) : (z :: l).getLast? = some y := by
  cases l with
  | nil => cases e
  | cons b l => rw [List.getLast?_cons_cons]; exact e

theorem ScopesTheSame.push {a a' b b' : Nat} {σ σ' : List (Option Nat)} (s : ScopesTheSame R a a' σ σ') (r : R b b') : ScopesTheSame R a a' (some b :: σ) (some b' :: σ') :=
  ⟨.some r s.rows, last_cons s.last, last_cons s.last'⟩

theorem ScopesTheSame.pushNil {a a' : Nat} {σ σ' : List (Option Nat)} (s : ScopesTheSame R a a' σ σ') : ScopesTheSame R a a' (none :: σ) (none :: σ') :=
  ⟨.none s.rows, last_cons s.last, last_cons s.last'⟩

/-- The jobs are the same but for the rows of a loop. -/
inductive JobTheSame (E : Param → Prop) (R : Nat → Nat → Prop) : Job → Job → Prop where
  | document : JobTheSame E R .document .document
  | body {l} : (∀ p ∈ l, E p) → JobTheSame E R (.body l) (.body l)
  | elem {p} : E p → JobTheSame E R (.elem p) (.elem p)
  | choose {names} : JobTheSame E R (.choose names) (.choose names)
  | loop {id n i l l'} : RowsTheSame R l l' → JobTheSame E R (.loop id n i l) (.loop id n i l')

variable {D : Type} {own : D → Option (List Param)} {look : D → Str → Option D} {I : D → Prop}

theorem not_broken {way : Way} {f f' : Found} (u : FoundTheSame x h h' R way f f') (n : f ≠ .broken) : f' ≠ .broken := by
  cases u with
  | broken => exact absurd rfl n
  | absent => simp
  | value => simp

theorem textOf_same {f f' : Found} (u : FoundTheSame x h h' R .text f f') {r : Out} (t : TextOf x h f r) : TextOf x h' f' r := by
  cases u with
  | absent => cases t; exact .absent
  | broken => cases t; exact .broken
  | value u => cases u with | text q => cases t with | value s => exact .value ((q _).1 s)

theorem renders_same_data (hd : DataTheSame x E h h' R) (ho : ∀ d l p, I d → own d = some l → p ∈ l → E p) (hl : ∀ d b v, I d → look d v = some b → I b)
    {a a' : Nat} (hr : RootTheSame x E h h' a a') {lang lang' : Option Language.Lang} (la : LangOf h a lang) (la' : LangOf h' a' lang')
    {d : D} {job : Job} {τ : Option (List (Option Nat))} {r : Out} (q : RendersIn own look x lang h d job τ r) :
    ∀ σ job' σ', I d → τ = some σ → JobTheSame E R job job' → ScopesTheSame R a a' σ σ' → RendersIn own look x lang' h' d job' (some σ') r := by
  have find : ∀ {p way key σ f σ'}, E p → LooksUp p way key → FoundAt h σ key f → ScopesTheSame R a a' σ σ' →
      ∃ f', FoundAt h' σ' key f' ∧ FoundTheSame x h h' R way f f' := fun e k q s => found_same hd e k q _ s.rows
  induction q with
  | document e _ ih => intro σ job' σ' i et j s; cases j; exact .document e (ih _ _ _ i et (.body fun p hp => ho _ _ p i e hp) s)
  | nil => intro σ job' σ' i et j s; cases j; exact .nil
  | cons _ _ ih1 ih2 =>
    intro σ job' σ' i et j s
    cases j with
    | body hp => exact .cons (ih1 _ _ _ i et (.elem (hp _ (by simp))) s) (ih2 _ _ _ i et (.body fun p h => hp p (by simp [h])) s)
  | consPanic _ ih => intro σ job' σ' i et j s; cases j with | body hp => exact .consPanic (ih _ _ _ i et (.elem (hp _ (by simp))) s)
  | chosen e _ ih =>
    intro σ job' σ' i et j s
    cases j
    obtain ⟨v, -, ev⟩ := List.exists_of_findSome?_eq_some e
    exact .chosen e (ih _ _ _ (hl _ _ v i ev) et .document s)
  | noChoice e => intro σ job' σ' i et j s; cases j; exact .noChoice e
  | text => intro σ job' σ' i et j s; cases j; exact .text
  | comment => intro σ job' σ' i et j s; cases j; exact .comment
  | language => intro σ job' σ' i et j s; cases j with | elem e => rw [hr.lang _ _ _ la la' e]; exact .language
  | variableNoData => intro σ job' σ' i et; cases et
  | «variable» f t =>
    intro σ job' σ' i et j s
    cases et
    cases j with
    | elem e =>
      obtain ⟨f', q, u⟩ := find e .variable f s
      exact .variable q (textOf_same u t)
  | reference e n1 n2 _ ih => intro σ job' σ' i et j s; cases j; exact .reference e n1 n2 (ih _ _ _ i et .choose s)
  | referenceNone e n => intro σ job' σ' i et j s; cases j; exact .referenceNone e n
  | referenceWith e n f isd _ ih =>
    intro σ job' σ' i et j s
    cases et
    cases j with
    | elem ep =>
      obtain ⟨f', q, u⟩ := find ep (.reference e) f s
      cases u with
      | value u => cases u with
        | opened _ b r => exact .referenceWith e n q b (ih _ _ _ i rfl .choose (s.push r))
        | notOpened b _ => exact absurd ⟨_, rfl, isd⟩ b
  | referenceWithout e n f nb nd _ ih =>
    intro σ job' σ' i et j s
    cases et
    cases j with
    | elem ep =>
      obtain ⟨f', q, u⟩ := find ep (.reference e) f s
      refine .referenceWithout e n q (not_broken u nb) (fun v ev => ?_) (ih _ _ _ i rfl .choose s)
      subst ev
      cases u with
      | value u => cases u with
        | opened b _ _ => exact absurd ⟨_, rfl, b⟩ (nd _ rfl)
        | notOpened _ b => exact b
  | referenceBroken e n f =>
    intro σ job' σ' i et j s
    cases et
    cases j with
    | elem ep =>
      obtain ⟨f', q, u⟩ := find ep (.reference e) f s
      cases u
      exact .referenceBroken e n q
  | referenceNoData => intro σ job' σ' i et; cases et
  | referenceValue e f t _ ih =>
    intro σ job' σ' i et j s
    cases et
    cases j with
    | elem ep =>
      obtain ⟨f', q, u⟩ := find ep (.referenceValue e) f s
      exact .referenceValue e q (textOf_same u t) (ih _ _ _ i rfl .choose s)
  | referenceValueBroken e f =>
    intro σ job' σ' i et j s
    cases et
    cases j with
    | elem ep =>
      obtain ⟨f', q, u⟩ := find ep (.referenceValue e) f s
      cases u
      exact .referenceValueBroken e q
  | referenceValueNoData => intro σ job' σ' i et; cases et
  | rangeNothing t n =>
    intro σ job' σ' i et j s
    cases j
    refine .rangeNothing t (Or.inl (n.resolve_right ?_))
    rw [et]; simp
  | rangeAbsent t n f _ ih =>
    intro σ job' σ' i et j s
    cases et
    cases j with
    | elem ep =>
      obtain ⟨f', q, u⟩ := find ep (.range t) f s
      cases u
      exact .rangeAbsent t n q (ih _ _ _ i rfl .choose s)
  | range t n f c _ ih =>
    intro σ job' σ' i et j s
    cases et
    cases j with
    | elem ep =>
      obtain ⟨f', q, u⟩ := find ep (.range t) f s
      cases u with
      | value u => cases u with
        | loop c1 c2 rs =>
          cases col_unique c c1
          refine .range t n q c2 ?_
          rw [← rs.length]
          exact ih _ _ _ i rfl (.loop rs) s
        | noLoop b _ => exact absurd ⟨_, _, rfl, c⟩ b
  | rangeOther t n f c =>
    intro σ job' σ' i et j s
    cases et
    cases j with
    | elem ep =>
      obtain ⟨f', q, u⟩ := find ep (.range t) f s
      cases u with
      | value u => cases u with
        | loop c1 c2 rs => exact absurd ⟨_, _, rfl, c1⟩ c
        | noLoop _ b => exact .rangeOther t n q b
  | rangeBroken t n f =>
    intro σ job' σ' i et j s
    cases et
    cases j with
    | elem ep =>
      obtain ⟨f', q, u⟩ := find ep (.range t) f s
      cases u
      exact .rangeBroken t n q
  | loopEnd => intro σ job' σ' i et j s; cases j with | loop rs => cases rs; exact .loopEnd
  | loop _ _ ih1 ih2 =>
    intro σ job' σ' i et j s
    cases et
    cases j with
    | loop rs => cases rs with
      | none rs => exact .loop (ih1 _ _ _ i rfl .choose s.pushNil) (ih2 _ _ _ i rfl (.loop rs) s)
      | some r rs => exact .loop (ih1 _ _ _ i rfl .choose (s.push r)) (ih2 _ _ _ i rfl (.loop rs) s)
  | loopPanic _ ih =>
    intro σ job' σ' i et j s
    cases et
    cases j with
    | loop rs => cases rs with
      | none rs => exact .loopPanic (ih _ _ _ i rfl .choose s.pushNil)
      | some r rs => exact .loopPanic (ih _ _ _ i rfl .choose (s.push r))
  | conditionNoData => intro σ job' σ' i et; cases et
  | conditionBroken t f =>
    intro σ job' σ' i et j s
    cases et
    cases j with
    | elem ep =>
      obtain ⟨f', q, u⟩ := find ep (.condition t) f s
      cases u
      exact .conditionBroken t q
  | conditionNothing t f b n =>
    intro σ job' σ' i et j s
    cases et
    cases j with
    | elem ep =>
      obtain ⟨f', q, u⟩ := find ep (.condition t) f s
      exact .conditionNothing t q (not_broken u b) n
  | conditionAbsent t f =>
    intro σ job' σ' i et j s
    cases et
    cases j with
    | elem ep =>
      obtain ⟨f', q, u⟩ := find ep (.condition t) f s
      cases u
      exact .conditionAbsent t q
  | conditionDataset t f isd =>
    intro σ job' σ' i et j s
    cases et
    cases j with
    | elem ep =>
      obtain ⟨f', q, u⟩ := find ep (.condition t) f s
      cases u with
      | value u => cases u with
        | testDataset _ b => exact .conditionDataset t q b
        | testText b _ _ => exact absurd isd b
  | conditionEmpty t n f sh =>
    intro σ job' σ' i et j s
    cases et
    cases j with
    | elem ep =>
      obtain ⟨f', q, u⟩ := find ep (.condition t) f s
      cases u with
      | value u => cases u with
        | testDataset _ b => exact .conditionDataset t q b
        | testText _ _ e => exact .conditionEmpty t n q ((e _).1 sh)
  | condition t n f nd sh ne _ ih =>
    intro σ job' σ' i et j s
    cases et
    cases j with
    | elem ep =>
      obtain ⟨f', q, u⟩ := find ep (.condition t) f s
      cases u with
      | value u => cases u with
        | testDataset b _ => exact absurd b nd
        | testText _ b e => exact .condition t n q b ((e _).1 sh) ne (ih _ _ _ i rfl .choose s)
  | dump hs hlast g =>
    intro σ job' σ' i et j s
    cases et
    cases j with
    | elem ep =>
      rw [s.last] at hlast
      cases hlast
      obtain ⟨n, g'⟩ := (hr.dump _ ep hs _).1 ⟨_, g⟩
      exact .dump hs s.last' g'
  | dumpNil hlast =>
    intro σ job' σ' i et j s
    cases et
    rw [s.last] at hlast
    cases hlast
  | dumpNothing hs =>
    intro σ job' σ' i et j s
    cases j
    refine .dumpNothing (Or.inl (hs.resolve_right ?_))
    rw [et]; simp
  | unknown f => intro σ job' σ' i et j s; cases j; exact .unknown f

end

theorem lang_exists (h : Heap) (a : Nat) : ∃ l, LangOf h a l := by
  by_cases q : ∃ b l, Entry h a b!"#" (.ptr b) ∧ h[b]? = some (.lang l)
  · obtain ⟨b, l, e, g⟩ := q
    exact ⟨_, .table e g⟩
  · exact ⟨_, .none fun b l e g => q ⟨b, l, e, g⟩⟩

theorem execute_same_data {x : Ext} {th : THeap} {t : Nat} (hu : Usable th t) {h h' : Heap} {a a' : Nat} (hp : Proper h (some a)) (hp' : Proper h' (some a'))
    {R : Nat → Nat → Prop} (hd : DataTheSame x (ElementOf th t) h h' R) (hr : RootTheSame x (ElementOf th t) h h' a a') (r : R a a') (n : Nat) :
    execute x th n t h (some a) = execute x th n t h' (some a') := by
  have ho : ∀ (d : Nat × Nat) l p, Inside th t d.2 → ownN th d = some l → p ∈ l → ElementOf th t p := by
    intro d l p i e hp
    unfold ownN at e
    split at e
    · cases e
    · cases e; exact ⟨_, i, hp⟩
  have hl : ∀ (d b : Nat × Nat) v, Inside th t d.2 → lookN th d v = some b → Inside th t b.2 := by
    intro d b v i e
    unfold lookN at e
    obtain ⟨c, ec, rfl⟩ := Option.map_eq_some_iff.1 e
    exact .sub i ec
  refine outOf_inj fun o => ?_
  rw [← execute_meets_n hu hp, ← execute_meets_n hu hp']
  constructor
  · intro q
    cases q with
    | data la q =>
      obtain ⟨l', la'⟩ := lang_exists h' a'
      exact .data la' (renders_same_data (I := fun d => Inside th t d.2) hd ho hl hr la la' q _ _ _ .here rfl .document ⟨.some r .nil, rfl, rfl⟩)
  · intro q
    cases q with
    | data la q =>
      obtain ⟨l', la'⟩ := lang_exists h a
      exact .data la' (renders_same_data (I := fun d => Inside th t d.2) hd.flip ho hl hr.flip la la' q _ _ _ .here rfl .document ⟨.some r .nil, rfl, rfl⟩)

end Xcore.V1.Template
