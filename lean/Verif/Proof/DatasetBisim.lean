import Verif.Spec.DatasetClone
import Verif.Proof.DatasetWF

/-!
# Related memories give the same answers
-/

namespace Xcore.Dataset

/-- Related elements of collections. -/
def RelElem (R : Val → Val → Prop) (e e' : Option Addr) : Prop :=
  (e = none ∧ e' = none) ∨ ∃ b b', e = some b ∧ e' = some b' ∧ R (.ptr b) (.ptr b')

/-- Objects with related contents. -/
inductive RelObj (R : Val → Val → Prop) (same : Prop) : Option Obj → Option Obj → Prop where
  | ds {m m' : AMap Val} : All2 (fun (p q : Str × Val) => p.1 = q.1 ∧ R p.2 q.2) m m' → RelObj R same (some (.ds m)) (some (.ds m'))
  | nilTS : RelObj R same (some (.dsTS none)) (some (.dsTS none))
  | ts {b b' : Addr} : R (.ptr b) (.ptr b') → RelObj R same (some (.dsTS (some b))) (some (.dsTS (some b')))
  | col {l l' : List (Option Addr)} : All2 (RelElem R) l l' → RelObj R same (some (.col l)) (some (.col l'))
  | colTS {l l' : List (Option Addr)} : All2 (RelElem R) l l' → RelObj R same (some (.colTS l)) (some (.colTS l'))
  | lang {l : Language.Lang} : same → RelObj R same (some (.lang l)) (some (.lang l))
  | slice {l : List Val} : same → RelObj R same (some (.slice l)) (some (.slice l))
  | none : same → RelObj R same none none

/-- Values related between two memories have the same contents, all the way down. -/
structure Bisim (h h' : Heap) (R : Val → Val → Prop) : Prop where
  ptr : ∀ {a : Addr} {w : Val}, R (.ptr a) w → ∃ c, w = .ptr c ∧ RelObj R (a = c) h[a]? h'[c]?
  slice : ∀ {k : SliceKind} {a : Addr} {w : Val}, R (.slice k a) w → w = .slice k a ∧ h'[a]? = h[a]?
  scalar : ∀ {v w : Val}, R v w → (∀ a, v ≠ .ptr a) → w = v

variable {h h' : Heap} {R : Val → Val → Prop}

theorem Bisim.asDataset (B : Bisim h h' R) {v w : Val} (r : R v w) :
    (asDataset h v = none ∧ asDataset h' w = none) ∨
    ∃ a c, v = .ptr a ∧ w = .ptr c ∧ asDataset h v = some a ∧ asDataset h' w = some c := by
  cases v with
  | ptr a =>
    obtain ⟨c, rfl, ro⟩ := B.ptr r
    simp only [Dataset.asDataset]
    generalize h[a]? = o at ro
    generalize h'[c]? = o' at ro
    cases ro <;> simp
  | _ => left; rw [B.scalar r (by simp)]; simp [Dataset.asDataset]

theorem Bisim.asCollection (B : Bisim h h' R) {v w : Val} (r : R v w) :
    (asCollection h v = none ∧ asCollection h' w = none) ∨
    ∃ a c, v = .ptr a ∧ w = .ptr c ∧ asCollection h v = some a ∧ asCollection h' w = some c ∧
      All2 (RelElem R) (elems h a) (elems h' c) := by
  cases v with
  | ptr a =>
    obtain ⟨c, rfl, ro⟩ := B.ptr r
    simp only [Dataset.asCollection, elems]
    generalize e1 : h[a]? = o at ro
    generalize e2 : h'[c]? = o' at ro
    cases ro with
    | col hl => right; exact ⟨a, c, rfl, rfl, rfl, rfl, by simpa only [e1, e2] using hl⟩
    | colTS hl => right; exact ⟨a, c, rfl, rfl, rfl, rfl, by simpa only [e1, e2] using hl⟩
    | _ => left; exact ⟨rfl, rfl⟩
  | _ => left; rw [B.scalar r (by simp)]; simp [Dataset.asCollection]

theorem Bisim.target (B : Bisim h h' R) (wf : WF h) (wf' : WF h') : ∀ {a c : Addr}, R (.ptr a) (.ptr c) →
    (target h a = none ∧ target h' c = none) ∨
    ∃ t t', target h a = some t ∧ target h' c = some t' ∧ R (.ptr t) (.ptr t') ∧
      All2 (fun (p q : Str × Val) => p.1 = q.1 ∧ R p.2 q.2) (entries h t) (entries h' t') := by
  have tnone : ∀ {h : Heap} {a : Addr}, (∀ m, h[a]? ≠ some (.ds m)) → (∀ b, h[a]? ≠ some (.dsTS (some b))) → Dataset.target h a = none := by
    intro h a h1 h2
    simp only [Dataset.target, targetN]
  have tw : ∀ {h : Heap} (wf : WF h) {a b : Addr}, h[a]? = some (.dsTS (some b)) → Dataset.target h a = Dataset.target h b := by
    intro h wf a b ho
    cases e : Dataset.target h b with
    | some t => exact (target_iff wf).2 (.wrapper ho ((target_iff wf).1 e))
    | none =>
      cases e' : Dataset.target h a with
      | none => rfl
      | some t =>
        have := (target_iff wf).1 e'
        cases this with
        | plain hm => rw [ho] at hm; cases hm
        | wrapper hb' w =>
          rw [ho] at hb'; cases hb'
          rw [(target_iff wf).2 w] at e; cases e
  intro a
  induction a using Nat.strongRecOn with
  | _ a ih =>
    intro c r
    obtain ⟨c', e, ro⟩ := B.ptr r
    cases e
    generalize ho : h[a]? = o at ro
    generalize ho' : h'[c]? = o' at ro
    cases ro with
    | ds hm =>
      right
      exact ⟨a, c, (target_iff wf).2 (.plain ho), (target_iff wf').2 (.plain ho'), r, by rw [entries_of ho, entries_of ho']; exact hm⟩
    | ts hb =>
      rw [tw wf ho, tw wf' ho']
      exact ih _ (wf.wrapper a _ ho).1 hb
    | _ => exact Or.inl ⟨tnone (by simp [ho]) (by simp [ho]), tnone (by simp [ho']) (by simp [ho'])⟩

theorem all2_get {m m' : AMap Val} (r : All2 (fun (p q : Str × Val) => p.1 = q.1 ∧ R p.2 q.2) m m') (k : Str) :
    (m.get k = none ∧ m'.get k = none) ∨ ∃ v w, m.get k = some v ∧ m'.get k = some w ∧ R v w := by
  induction r with
  | nil => left; simp
  | @cons p q m m' h1 _ ih =>
    obtain ⟨a, b⟩ := p
    obtain ⟨a', b'⟩ := q
    obtain ⟨rfl, hr⟩ := h1
    simp only [AMap.get]
    by_cases e : a = k
    · simp only [e, if_true]; exact Or.inr ⟨b, b', rfl, rfl, hr⟩
    · simp only [e, if_false]; exact ih

theorem all2_colGet {l l' : List (Option Addr)}
    (r : All2 (RelElem R) l l') (i : Int) :
    (colGet l i = none ∧ colGet l' i = none) ∨ (colGet l i = some none ∧ colGet l' i = some none) ∨
    ∃ b b', colGet l i = some (some b) ∧ colGet l' i = some (some b') ∧ R (.ptr b) (.ptr b') := by
  unfold colGet
  rw [r.length]
  split
  · left; simp
  · rename_i hi
    have : i.toNat < l.length := by rw [r.length]; omega
    obtain ⟨e', h1, h2⟩ := r.get i.toNat (List.getElem?_eq_getElem this)
    rw [List.getElem?_eq_getElem this, h1]
    right
    rcases h2 with ⟨h2, h3⟩ | ⟨b, b', h2, h3, h4⟩
    · left; rw [h2, h3]; simp
    · right; exact ⟨b, b', by rw [h2], by rw [h3], h4⟩

/-- Related results of Get. -/
def RelGet (R : Val → Val → Prop) : Res (Option Val) → Res (Option Val) → Prop
  | .ok none, .ok none => True
  | .ok (some v), .ok (some w) => R v w
  | .panic, .panic => True
  | _, _ => False

theorem Bisim.getSegs (B : Bisim h h' R) (wf : WF h) (wf' : WF h') : ∀ (n : Nat) (segs : List Str), segs.length ≤ n → ∀ {a c : Addr}, R (.ptr a) (.ptr c) →
    RelGet R (getSegs h a segs) (getSegs h' c segs) := by
  intro n
  induction n with
  | zero =>
    intro segs hs a c r
    have : segs = [] := List.length_eq_zero_iff.1 (by omega)
    subst this
    simp [Dataset.getSegs, RelGet]
  | succ n ih =>
    intro segs hs a c r
    match segs, hs with
    | [], _ => simp [Dataset.getSegs, RelGet]
    | [key], _ =>
      simp only [Dataset.getSegs]
      rcases B.target wf wf' r with ⟨h1, h2⟩ | ⟨t, t', h1, h2, _, h4⟩
      · simp [h1, h2, RelGet]
      · simp only [h1, h2]
        rcases all2_get h4 key with ⟨h5, h6⟩ | ⟨v, w, h5, h6, h7⟩
        · simp [h5, h6, RelGet]
        · simp only [h5, h6, RelGet]; exact h7
    | s :: s2 :: rest, hs =>
      simp only [Dataset.getSegs]
      rcases B.target wf wf' r with ⟨h1, h2⟩ | ⟨t, t', h1, h2, _, h4⟩
      · simp [h1, h2, RelGet]
      · simp only [h1, h2]
        rcases all2_get h4 s with ⟨h5, h6⟩ | ⟨v, w, h5, h6, h7⟩
        · simp [h5, h6, RelGet]
        · simp only [h5, h6]
          rcases B.asDataset h7 with ⟨g1, g2⟩ | ⟨b, b', e1, e2, g1, g2⟩
          · simp only [g1, g2]
            rcases B.asCollection h7 with ⟨g3, g4⟩ | ⟨b, b', e1, e2, g3, g4, g5⟩
            · simp only [g3, g4]
              rcases all2_get h4 (join b!">" (s :: s2 :: rest)) with ⟨h5, h6⟩ | ⟨v, w, h5, h6, h7⟩
              · rw [h5, h6]; trivial
              · rw [h5, h6]; exact h7
            · simp only [g3, g4]
              cases atoi s2 with
              | none => trivial
              | some i =>
                simp only
                rcases all2_colGet g5 i with ⟨h5, h6⟩ | ⟨h5, h6⟩ | ⟨b, b', h5, h6, h7⟩
                · rw [h5, h6]; trivial
                · rw [h5, h6]; trivial
                · rw [h5, h6]
                  simp only
                  cases rest with
                  | nil => exact h7
                  | cons q rest => exact ih _ (by simp at hs ⊢; omega) h7
          · simp only [g1, g2]
            subst e1; subst e2
            exact ih _ (by simp at hs ⊢; omega) h7

theorem Bisim.get (B : Bisim h h' R) (wf : WF h) (wf' : WF h') {a c : Addr} (r : R (.ptr a) (.ptr c)) (key : Str) :
    RelGet R (get h a key) (get h' c key) := B.getSegs wf wf' _ _ (Nat.le_refl _) r

theorem mapOpt_congr {α β γ : Type} {f : α → Option γ} {g : β → Option γ} {l : List α} {m : List β}
    (r : All2 (fun a b => f a = g b) l m) : mapOpt f l = mapOpt g m := by
  induction r with
  | nil => rfl
  | cons h1 _ ih => simp only [mapOpt]; rw [h1, ih]

theorem Bisim.sprint (B : Bisim h h' R) (wf : WF h) (wf' : WF h') (x : Ext) (n : Nat) {v w : Val} (r : R v w) :
    sprint x n h v = sprint x n h' w := by
  induction n generalizing v w with
  | zero => rfl
  | succ n ih =>
    cases v with
    | ptr a =>
      obtain ⟨c, rfl, ro⟩ := B.ptr r
      simp only [Dataset.sprint]
      have htar := B.target wf wf' r
      have hcol : ∀ {l l' : List (Option Addr)}, All2 (RelElem R) l l' →
          All2 (fun e e' => (match e with | none => some b!"<nil>" | some b => Dataset.sprint x n h (.ptr b)) =
            (match e' with | none => some b!"<nil>" | some b => Dataset.sprint x n h' (.ptr b))) l l' := by
        intro l l' hl
        refine hl.imp fun e e' _ he => ?_
        rcases he with ⟨rfl, rfl⟩ | ⟨b, b', rfl, rfl, hr⟩
        · rfl
        · exact ih hr
      generalize h[a]? = o at ro
      generalize h'[c]? = o' at ro
      cases ro with
      | none => rfl
      | ds ro =>
        simp only
        rw [mapOpt_congr (g := fun p : Str × Val => (Dataset.sprint x n h' p.2).map fun s => p.1 ++ b!":" ++ s)]
        exact ro.imp fun p q _ ⟨h1, h2⟩ => by rw [ih h2, h1]
      | nilTS =>
        simp only
        rcases htar with ⟨h1, h2⟩ | ⟨t, t', h1, h2, h3, _⟩
        · rw [h1, h2]
        · rw [h1, h2]; exact ih h3
      | ts =>
        simp only
        rcases htar with ⟨h1, h2⟩ | ⟨t, t', h1, h2, h3, _⟩
        · rw [h1, h2]
        · rw [h1, h2]; exact ih h3
      | col ro => exact congrArg (fun o => match o with | none => none | some l => some (b!"XDatasetCollection[" ++ colText 0 l ++ b!"]")) (mapOpt_congr (hcol ro))
      | colTS ro => exact congrArg (fun o => match o with | none => none | some l => some (b!"XDatasetCollectionTS[" ++ colText 0 l ++ b!"]")) (mapOpt_congr (hcol ro))
      | lang => rfl
      | slice => rfl
    | slice k a =>
      obtain ⟨rfl, e⟩ := B.slice r
      simp only [Dataset.sprint, e]
    | _ => rw [B.scalar r (by simp)]; rfl

theorem Bisim.goSprint (B : Bisim h h' R) (wf : WF h) (wf' : WF h') (x : Ext) (n : Nat) {v w : Val} (r : R v w) :
    goSprint x n h v = goSprint x n h' w := by
  induction n generalizing v w with
  | zero => rfl
  | succ n ih =>
    cases v with
    | ptr a =>
      obtain ⟨c, rfl, ro⟩ := B.ptr r
      simp only [Dataset.goSprint]
      have htar := B.target wf wf' r
      have hsp := B.sprint wf wf' x n r
      generalize h[a]? = o at ro
      generalize h'[c]? = o' at ro
      cases ro with
      | none => rfl
      | ds ro =>
        simp only
        rw [mapOpt_congr (g := fun p : Str × Val => (Dataset.goSprint x n h' p.2).map fun s => p.1 ++ b!":" ++ s)]
        exact ro.imp fun p q _ ⟨h1, h2⟩ => by rw [ih h2, h1]
      | nilTS =>
        simp only
        rcases htar with ⟨h1, h2⟩ | ⟨t, t', h1, h2, h3, _⟩
        · rw [h1, h2]
        · rw [h1, h2]; exact ih h3
      | ts =>
        simp only
        rcases htar with ⟨h1, h2⟩ | ⟨t, t', h1, h2, h3, _⟩
        · rw [h1, h2]
        · rw [h1, h2]; exact ih h3
      | col ro => simp only; exact hsp
      | colTS ro => simp only; exact hsp
      | lang => rfl
      | slice => rfl
    | slice k a =>
      obtain ⟨rfl, e⟩ := B.slice r
      simp only [Dataset.goSprint, e]
    | _ => rw [B.scalar r (by simp)]; rfl

/-- Values that are neither dataset nor collection are equal. -/
theorem Bisim.plain (B : Bisim h h' R) {v w : Val} (r : R v w) (hp : Plain h v) : w = v := by
  cases v with
  | ptr a =>
    obtain ⟨c, rfl, ro⟩ := B.ptr r
    obtain ⟨h1, h2⟩ := hp a rfl
    have : a = c := by
      generalize ho : h[a]? = o at ro
      generalize ho' : h'[c]? = o' at ro
      cases ro with
      | ds => exact absurd (Or.inl ⟨_, ho⟩) h1
      | nilTS => exact absurd (Or.inr ⟨_, ho⟩) h1
      | ts => exact absurd (Or.inr ⟨_, ho⟩) h1
      | col => exact absurd (Or.inl ho) (h2 _)
      | colTS => exact absurd (Or.inr ho) (h2 _)
      | lang e => exact e
      | slice e => exact e
      | none e => exact e
    rw [this]
  | _ => exact B.scalar r (by simp)

/-- Related datasets give the same answers. -/
theorem Bisim.sameAnswers (B : Bisim h h' R) (wf : WF h) (wf' : WF h') {a c : Addr} (r : R (.ptr a) (.ptr c)) : SameAnswers h a h' c := by
  -- what a getter makes of related results
  have key : ∀ {β : Type} (key : Str) (f g : Option Val → β), f none = g none → (∀ v w, R v w → f (some v) = g (some w)) →
      (Dataset.get h a key).map f = (Dataset.get h' c key).map g := by
    intro β k f g h0 h1
    have := B.get wf wf' r k
    revert this
    generalize Dataset.get h a k = q
    generalize Dataset.get h' c k = q'
    intro hq
    match q, q', hq with
    | .ok none, .ok none, _ => simp [Res.map, h0]
    | .ok (some v), .ok (some w), hq => simp only [Res.map]; rw [h1 v w hq]
    | .panic, .panic, _ => rfl
  -- getters that look at values which are not datasets or collections
  have key2 : ∀ {β : Type} (k : Str) (f : Option Val → β), (∀ a c, f (some (.ptr a)) = f (some (.ptr c))) →
      (Dataset.get h' c k).map f = (Dataset.get h a k).map f := by
    intro β k f hf
    refine (key k f f rfl fun v w hr => ?_).symm
    cases v with
    | ptr a => obtain ⟨c, rfl, _⟩ := B.ptr hr; exact hf a c
    | _ => rw [B.scalar hr (by simp)]
  have kd : ∀ k, (getDataset h a k).map Option.isSome = (getDataset h' c k).map Option.isSome := by
    intro k
    unfold getDataset
    have := key k (fun r => (r.bind (Dataset.asDataset h)).isSome) (fun r => (r.bind (Dataset.asDataset h')).isSome) rfl (fun v w hr => by
      rcases B.asDataset hr with ⟨h1, h2⟩ | ⟨_, _, _, _, h1, h2⟩ <;> simp [h1, h2])
    revert this
    cases Dataset.get h a k <;> cases Dataset.get h' c k <;> simp [Res.map]
  have kc : ∀ k, (getCollection h a k).map (fun o => o.map (count h)) = (getCollection h' c k).map (fun o => o.map (count h')) := by
    intro k
    unfold getCollection
    have := key k (fun r => (r.bind (Dataset.asCollection h)).map (count h)) (fun r => (r.bind (Dataset.asCollection h')).map (count h')) rfl (fun v w hr => by
      rcases B.asCollection hr with ⟨h1, h2⟩ | ⟨_, _, _, _, h1, h2, h3⟩
      · simp [h1, h2]
      · simp [h1, h2, count, h3.length])
    revert this
    cases Dataset.get h a k <;> cases Dataset.get h' c k <;> simp [Res.map]
  constructor
  · intro k
    have := B.get wf wf' r k
    revert this
    generalize Dataset.get h a k = q
    generalize Dataset.get h' c k = q'
    intro hq
    match q, q', hq with
    | .ok none, .ok none, _ => simp
    | .ok (some v), .ok (some w), hq => simp
    | .panic, .panic, _ => simp
  · intro k v hp hg
    have := B.get wf wf' r k
    rw [hg] at this
    revert this
    generalize Dataset.get h' c k = q'
    intro hq
    match q', hq with
    | .ok (some w), hq => rw [B.plain hq hp]
  · intro k
    have := kd k
    revert this
    cases getDataset h a k with
    | ok o => cases getDataset h' c k with
      | ok o' => cases o <;> cases o' <;> simp [Res.map]
      | _ => simp [Res.map]
    | panic => cases getDataset h' c k with
      | ok o' => simp [Res.map]
      | _ => simp
    | diverge => cases getDataset h' c k with
      | ok o' => simp [Res.map]
      | _ => simp
  · intro k
    have := kc k
    revert this
    cases getCollection h a k with
    | ok o => cases getCollection h' c k with
      | ok o' => cases o <;> cases o' <;> simp [Res.map]
      | _ => simp [Res.map]
    | panic => cases getCollection h' c k with
      | ok o' => simp [Res.map]
      | _ => simp
    | diverge => cases getCollection h' c k with
      | ok o' => simp [Res.map]
      | _ => simp
  · intro k b b' h1 h2
    have := kc k
    rw [h1, h2] at this
    simpa [Res.map] using this.symm
  · intro x n k
    unfold Dataset.getString
    have := B.get wf wf' r k
    revert this
    generalize Dataset.get h a k = q
    generalize Dataset.get h' c k = q'
    intro hq
    match q, q', hq with
    | .ok none, .ok none, _ => rfl
    | .ok (some v), .ok (some w), hq =>
      simp only [Res.bind]
      have hs := B.sprint wf wf' x n hq
      cases v with
      | ptr a => obtain ⟨c, rfl, _⟩ := B.ptr hq; simp only [hs]
      | nil => rw [B.scalar hq (by simp)]
      | slice k b => obtain ⟨rfl, _⟩ := B.slice hq; simp only [hs]
      | _ => have e := B.scalar hq (by simp); subst e; simp only [hs]
    | .panic, .panic, _ => rfl
  · intro k; exact key2 k _ (by intros; rfl)
  · intro x k; exact key2 k _ (by intros; rfl)
  · intro k; exact key2 k _ (by intros; rfl)
  · intro k; exact key2 k _ (by intros; rfl)
  · intro sk k; exact key2 k _ (by intros; rfl)
  · intro x n
    unfold dsString
    rcases B.target wf wf' r with ⟨h1, h2⟩ | ⟨t, t', h1, h2, h3, _⟩
    · rw [h1, h2]
    · rw [h1, h2]; simp only; rw [B.sprint wf wf' x n h3]
  · intro x n
    unfold dsGoString
    rcases B.target wf wf' r with ⟨h1, h2⟩ | ⟨t, t', h1, h2, h3, _⟩
    · rw [h1, h2]
    · rw [h1, h2]; simp only; rw [B.goSprint wf wf' x n h3]

theorem Bisim.sameCollection (B : Bisim h h' R) (wf : WF h) (wf' : WF h') {a c : Addr} (r : R (.ptr a) (.ptr c))
    {l : List (Option Addr)} (hl : IsCollection h a l) : SameCollection h a h' c := by
  rcases B.asCollection r with ⟨h1, _⟩ | ⟨a', c', e1, e2, h1, h2, h3⟩
  · exact absurd hl ((asCollection_none.1 h1) a rfl l)
  · cases e1; cases e2
    refine ⟨h3.length.symm, ?_, ?_, fun x n => (B.sprint wf wf' x n r).symm⟩
    · intro i e he
      rcases all2_colGet h3 i with ⟨h5, _⟩ | ⟨h5, _⟩ | ⟨b, b', h5, h6, h7⟩
      · rw [colGetAt, h5] at he; cases he
      · rw [colGetAt, h5] at he; cases he
      · rw [colGetAt, h5] at he; cases he
        exact ⟨b', h6, B.sameAnswers wf wf' h7⟩
    · intro i
      unfold colGetAt
      rcases all2_colGet h3 i with ⟨h5, h6⟩ | ⟨h5, h6⟩ | ⟨b, b', h5, h6, h7⟩ <;> simp [h5, h6]

end Xcore.Dataset
