import Verif.Proof.TemplateConc

/-!
# Goroutines that render do not disturb each other
-/

namespace Xcore.Template

open Xcore.Dataset Prog

/-! ## Memory between two steps of a goroutine -/

/-- The datasets in `T` get no other number than the one in `T`. -/
def Pins (h0 : Heap) (T : List (Nat × Nat)) : Prop := ∀ t i, (t, i) ∈ T → ∀ j, Numbered h0 t j → j = i

/-- What memory may be like for a goroutine that has numbered the datasets in `T`. -/
structure Apart (h0 : Heap) (T : List (Nat × Nat)) (h : Heap) : Prop where
  same : SameButCounters h0 h
  wf : WF h
  pins : ∀ t i, (t, i) ∈ T → ∃ m, h[t]? = some (.ds m) ∧ m.get b!".counter" = some (.int .int (i : Nat))

theorem Apart.shape {h0 h : Heap} {T : List (Nat × Nat)} (s : Apart h0 T h) : Shape h0 h := s.same.shape s.wf

theorem Apart.sub {h0 h : Heap} {T T' : List (Nat × Nat)} (s : Apart h0 T h) (q : ∀ p ∈ T', p ∈ T) : Apart h0 T' h :=
  ⟨s.same, s.wf, fun t i hm => s.pins t i (q _ hm)⟩

/-- A loop of any goroutine gives a dataset its number. -/
theorem Apart.number {h0 h : Heap} {T : List (Nat × Nat)} (sh0 : Short h0) (s : Apart h0 T h) {t i : Nat} (hn : Numbered h0 t i) {m : AMap Val}
    (hm : h[t]? = some (.ds m)) (T' : List (Nat × Nat)) (hT : ∀ p ∈ T', p ∈ T ∨ p = (t, i)) (hp : Pins h0 T') :
    Apart h0 T' (h.set t (.ds (m.set b!".counter" (.int .int (i : Nat))))) := by
  obtain ⟨c, l, k, a, hc, hk, hw, rfl⟩ := hn
  have hlt := lt_of_getElem? hk
  have hs := sh0 c l hc
  have sc : SetCounter h a ((k : Int) + 1) (h.set t (.ds (m.set b!".counter" (.int .int ((k + 1 : Nat) : Int))))) :=
    ⟨t, m, (s.shape.wraps a t).2 hw, hm, by simp⟩
  refine ⟨s.same.trans (same_counter sc), wf_counter s.wf ⟨by omega, by omega⟩ sc, fun t' i' hm' => ?_⟩
  rw [List.getElem?_set]
  by_cases e : t = t'
  · subst e
    have := hp t i' hm' (k + 1) ⟨c, l, k, a, hc, hk, hw, rfl⟩
    subst this
    exact ⟨m.set b!".counter" (.int .int ((k + 1 : Nat) : Int)), by simp [lt_of_getElem? hm], AMap.get_set_self ..⟩
  · rw [if_neg e]
    rcases hT _ hm' with q | q
    · exact s.pins t' i' q
    · cases q; exact absurd rfl e

theorem Apart.target {h0 h : Heap} {T : List (Nat × Nat)} (wf0 : WF h0) (s : Apart h0 T h) (a : Nat) : target h a = target h0 a := by
  cases e : Dataset.target h0 a with
  | some t => exact (target_iff s.wf).2 ((s.shape.wraps a t).2 ((target_iff wf0).1 e))
  | none =>
    cases e' : Dataset.target h a with
    | none => rfl
    | some t => rw [(target_iff wf0).2 ((s.shape.wraps a t).1 ((target_iff s.wf).1 e'))] at e; cases e

theorem Apart.get {h0 h : Heap} {T : List (Nat × Nat)} (s : Apart h0 T h) (t : Nat) {k : Str} (hk : k ≠ b!".counter") :
    (entries h t).get k = (entries h0 t).get k := by
  rcases s.same.objects t with e | ⟨m, m', e1, e2, hne, _⟩
  · simp only [entries, e]
  · rw [entries_of e1, entries_of e2]; exact hne k hk

theorem Apart.asDataset {h0 h : Heap} {T : List (Nat × Nat)} (s : Apart h0 T h) (v : Val) : asDataset h v = asDataset h0 v := by
  cases e : Dataset.asDataset h0 v with
  | some b => obtain ⟨e1, e2⟩ := asDataset_some.1 e; exact asDataset_some.2 ⟨e1, (s.shape.isDataset b).2 e2⟩
  | none => exact asDataset_none.2 fun b eb q => asDataset_none.1 e b eb ((s.shape.isDataset b).1 q)

theorem Apart.elems {h0 h : Heap} {T : List (Nat × Nat)} (s : Apart h0 T h) (c : Nat) : elems h c = elems h0 c := by
  rcases s.same.objects c with e | ⟨m, m', e1, e2, _⟩
  · simp only [Dataset.elems, e]
  · simp only [Dataset.elems, e1, e2]

theorem Apart.asCollection {h0 h : Heap} {T : List (Nat × Nat)} (s : Apart h0 T h) (v : Val) : asCollection h v = asCollection h0 v := by
  cases e : Dataset.asCollection h0 v with
  | some b => obtain ⟨e1, e2⟩ := asCollection_some.1 e; exact asCollection_some.2 ⟨e1, by rw [s.elems]; exact (s.shape.isCollection b _).2 e2⟩
  | none => exact asCollection_none.2 fun b eb l q => asCollection_none.1 e b eb l ((s.shape.isCollection b l).1 q)

/-! ## Programs whose steps do not depend on the others -/

/-- Whatever the others do, the program ends with the result `a` after `n` steps. -/
inductive Sure (h0 : Heap) {α : Type} : List (Nat × Nat) → Prog α → α → Nat → Prop where
  | ret {T : List (Nat × Nat)} {a : α} : Sure h0 T (.ret a) a 0
  | read {T : List (Nat × Nat)} {k : Heap → Prog α} {p : Prog α} {a : α} {n : Nat} : (∀ h, Apart h0 T h → k h = p) → Sure h0 T p a n →
      Sure h0 T (.read k) a (n + 1)
  | write {T T' : List (Nat × Nat)} {f : Heap → Res Heap} {k : Prog α} {t i : Nat} {a : α} {n : Nat} : Numbered h0 t i →
      (∀ h, Apart h0 T h → ∃ m, h[t]? = some (.ds m) ∧ f h = .ok (h.set t (.ds (m.set b!".counter" (.int .int (i : Nat)))))) →
      (T' = T ∨ T' = (t, i) :: T ∧ ∀ j, Numbered h0 t j → j = i) → Sure h0 T' k a n → Sure h0 T (.write f k) a (n + 1)

theorem Sure.more {h0 : Heap} {α : Type} {T : List (Nat × Nat)} {p : Prog α} {a : α} {n : Nat} (s : Sure h0 T p a n) :
    ∀ {T2 : List (Nat × Nat)}, (∀ q ∈ T, q ∈ T2) → Sure h0 T2 p a n := by
  induction s with
  | ret => intro _ _; exact .ret
  | read e _ ih => intro T2 hq; exact .read (fun h sm => e h (sm.sub hq)) (ih hq)
  | write hn e hT _ ih =>
    intro T2 hq
    rcases hT with rfl | ⟨rfl, hu⟩
    · exact .write hn (fun h sm => e h (sm.sub hq)) (Or.inl rfl) (ih hq)
    · refine .write hn (fun h sm => e h (sm.sub hq)) (Or.inr ⟨rfl, hu⟩) (ih fun q hm => ?_)
      rcases List.mem_cons.1 hm with rfl | hm
      · simp
      · exact List.mem_cons_of_mem _ (hq q hm)

theorem Sure.bind {h0 : Heap} {α β : Type} {T : List (Nat × Nat)} {p : Prog α} {a : α} {n : Nat} (s : Sure h0 T p a n) {f : α → Prog β} {b : β} {m : Nat}
    (s' : Sure h0 T (f a) b m) : Sure h0 T (p >>= f) b (n + m) := by
  induction s with
  | ret => rw [ret_bind, Nat.zero_add]; exact s'
  | read e _ ih =>
    rw [read_bind, show ∀ n, n + 1 + m = n + m + 1 by intro n; omega]
    exact .read (fun h sm => by rw [e h sm]) (ih s')
  | write hn e hT _ ih =>
    rw [write_bind, show ∀ n, n + 1 + m = n + m + 1 by intro n; omega]
    refine .write hn e hT (ih (s'.more fun q hq => ?_))
    rcases hT with rfl | ⟨rfl, _⟩
    · exact hq
    · exact List.mem_cons_of_mem _ hq

/-- Whatever the others do, the program ends with the result. -/
def Surely (h0 : Heap) (T : List (Nat × Nat)) {α : Type} (p : Prog α) (a : α) : Prop := ∃ n, Sure h0 T p a n

section

variable {h0 : Heap} {T : List (Nat × Nat)} {α β : Type}

theorem Surely.ret {a : α} : Surely h0 T (.ret a) a := ⟨0, .ret⟩

theorem Surely.bind {p : Prog α} {a : α} (s : Surely h0 T p a) {f : α → Prog β} {b : β} (s' : Surely h0 T (f a) b) : Surely h0 T (p >>= f) b := by
  obtain ⟨n, s⟩ := s; obtain ⟨m, s'⟩ := s'; exact ⟨n + m, s.bind s'⟩

theorem Surely.look {g : Heap → Res α} {a : α} (e : ∀ h, Apart h0 T h → g h = .ok a) : Surely h0 T (.look g) a :=
  ⟨1, .read (fun h sm => by rw [e h sm]; rfl) .ret⟩

theorem Surely.look_bind {g : Heap → Res α} {a : α} (e : ∀ h, Apart h0 T h → g h = .ok a) {f : α → Prog β} {b : β} (s' : Surely h0 T (f a) b) :
    Surely h0 T (.look g >>= f) b := (Surely.look e).bind s'

theorem Surely.more {p : Prog α} {a : α} (s : Surely h0 T p a) {T2 : List (Nat × Nat)} (hq : ∀ q ∈ T, q ∈ T2) : Surely h0 T2 p a := by
  obtain ⟨n, s⟩ := s; exact ⟨n, s.more hq⟩

theorem ofRes_ok_bind {a : α} {f : α → Prog β} : (Prog.ofRes (.ok a) >>= f) = f a := rfl

end

/-! ## Reading -/

theorem sure_lookP {h0 : Heap} (wf0 : WF h0) {T : List (Nat × Nat)} {a : Nat} {key : Str} (hk : key ≠ b!".counter") {o : Option Val}
    (e : getSegs h0 a [key] = .ok o) : Surely h0 T (lookP a key) o := by
  refine .look fun h sm => ?_
  rw [getSegs] at e
  rw [sm.target wf0]
  cases ht : target h0 a with
  | none => rw [ht] at e; cases e
  | some t => rw [ht] at e; simp only at e ⊢; rw [sm.get t hk]; exact e

theorem sure_getP {h0 : Heap} (wf0 : WF h0) {T : List (Nat × Nat)} : ∀ (n : Nat) (a : Nat) (l : List Str) (o : Option Val), l.length ≤ n →
    b!".counter" ∉ l → getSegs h0 a l = .ok o → Surely h0 T (getP a l) o := by
  intro n
  induction n with
  | zero =>
    intro a l o hl _ e
    cases l with
    | nil => rw [getSegs] at e; cases e; exact .ret
    | cons => simp at hl
  | succ n ih =>
    intro a l o hl hn e
    match l, hl, hn with
    | [], _, _ => rw [getSegs] at e; cases e; exact .ret
    | [key], _, hn => exact sure_lookP wf0 (fun q => hn (by simp [q])) e
    | s :: s2 :: rest, hl, hn =>
      simp only [List.length_cons] at hl
      simp only [List.mem_cons, not_or] at hn
      have look : ∀ (k : Str) (t : Nat), k ≠ b!".counter" → target h0 a = some t → Surely h0 T (lookP a k) ((entries h0 t).get k) := by
        intro k t hk ht
        exact sure_lookP wf0 hk (by rw [getSegs, ht])
      rw [getSegs.eq_def] at e
      rw [getP_more]
      simp only at e
      cases ht : target h0 a with
      | none => rw [ht] at e; cases e
      | some t =>
        rw [ht] at e
        simp only at e
        refine (look s t (fun q => hn.1 q.symm) ht).bind ?_
        cases hg : (entries h0 t).get s with
        | none => rw [hg] at e; cases e; exact .ret
        | some v =>
          rw [hg] at e
          simp only at e ⊢
          refine Surely.look_bind (a := (asDataset h0 v, asCollection h0 v)) (fun h sm => by rw [sm.asDataset, sm.asCollection]) ?_
          cases h1 : asDataset h0 v with
          | some b => rw [h1] at e; exact ih b (s2 :: rest) o (by simp; omega) (by simp [hn.2]) e
          | none =>
            rw [h1] at e
            cases h2 : asCollection h0 v with
            | none =>
              rw [h2] at e
              simp only at e ⊢
              cases e
              refine look _ t (fun q => ?_) ht
              have : (62 : UInt8) ∈ join b!">" (s :: s2 :: rest) := by simp [join]
              rw [q] at this
              revert this
              decide
            | some c =>
              rw [h2] at e
              simp only at e ⊢
              cases hi : atoi s2 with
              | none => rw [hi] at e; cases e; exact .ret
              | some i =>
                rw [hi] at e
                simp only at e ⊢
                refine Surely.look_bind (a := colGet (elems h0 c) i) (fun h sm => by rw [sm.elems]) ?_
                cases hc : colGet (elems h0 c) i with
                | none => rw [hc] at e; cases e; exact .ret
                | some q =>
                  cases q with
                  | none => rw [hc] at e; cases e; exact .ret
                  | some q =>
                    rw [hc] at e
                    cases rest with
                    | nil => cases e; exact .ret
                    | cons r rest => exact ih q (r :: rest) o (by simp at hl ⊢; omega) (by simp only [List.mem_cons, not_or] at hn ⊢; exact hn.2.2) e

theorem sure_getDataP {h0 : Heap} (wf0 : WF h0) {T : List (Nat × Nat)} {key : Str} (hn : NoCounter key) : ∀ (l : List (Option Nat)) (o : Option Val),
    getDataL h0 key l = .ok o → Surely h0 T (getDataP key l) o := by
  intro l
  induction l with
  | nil => intro o e; cases e; exact .ret
  | cons q l ih =>
    intro o e
    cases q with
    | none => cases e
    | some a =>
      rw [getDataL] at e
      rw [getDataP]
      cases hg : Dataset.get h0 a key with
      | ok r =>
        rw [hg] at e
        refine (sure_getP wf0 _ a _ r (Nat.le_refl _) hn hg).bind ?_
        cases r with
        | some v => cases e; exact .ret
        | none => exact ih o e
      | panic => rw [hg] at e; cases e
      | diverge => rw [hg] at e; cases e

/-- A value read from the stack. -/
theorem sure_stack {h0 : Heap} {T : List (Nat × Nat)} {σ : List Nat} (hd : Ready h0 (some σ)) {key : Str} (hn : NoCounter key) {v : Val}
    (hv : ValueAt h0 (some σ) key v) : ∃ o, Surely h0 T (stackGetP (σ.reverse.map some) key) o ∧ o.getD .nil = v := by
  obtain ⟨o, e, q⟩ := stack_value hd hv
  exact ⟨o, sure_getDataP hd.wf hn _ o e, q⟩

theorem sure_sprint {x : Ext} {h0 : Heap} {T : List (Nat × Nat)} {v : Val} (hp : Plain h0 v) (hn : v ≠ .nil) {s : Str} (hs : Shows x h0 v s) :
    Surely h0 T (sprintP x v) s := by
  refine .look fun h sm => ?_
  rw [(shows_iff sm.wf hn).1 ((shows_plain sm.shape hp s).2 hs)]
  rfl

theorem sure_isEmpty {x : Ext} {h0 : Heap} (wf0 : WF h0) {T : List (Nat × Nat)} {v : Val} (hn : v ≠ .nil) {s : Str} (hs : Shows x h0 v s) :
    Surely h0 T (isEmptyP x v) s.isEmpty := by
  refine .look fun h sm => ?_
  obtain ⟨s', hs', q⟩ := shows_shape wf0 sm.wf sm.shape hs
  rw [(shows_iff sm.wf hn).1 hs']
  cases s with
  | nil => rw [q.2 rfl]; rfl
  | cons c s =>
    cases s' with
    | nil => exact absurd (q.1 rfl) (by simp)
    | cons => rfl

theorem sure_stackString {x : Ext} {h0 : Heap} {T : List (Nat × Nat)} {σ : List Nat} (hd : Ready h0 (some σ)) {key : Str} (hn : NoCounter key) {v : Val}
    (hv : ValueAt h0 (some σ) key v) (hp : Plain h0 v) {s : Str} (hs : Shows x h0 v s) : Surely h0 T (stackStringP x (σ.reverse.map some) key) s := by
  obtain ⟨o, e, q⟩ := sure_stack (T := T) hd hn hv
  refine e.bind ?_
  cases o with
  | none => cases q; change Shows x h0 .nil s at hs; rw [shows_nil] at hs; subst hs; exact .ret
  | some w =>
    cases q
    by_cases hw : w = .nil
    · subst hw; change Shows x h0 .nil s at hs; rw [shows_nil] at hs; subst hs; exact .ret
    · cases w <;> first | exact absurd rfl hw | exact sure_sprint hp hw hs

/-- The counter of a row that this goroutine has numbered. -/
theorem sure_counter {x : Ext} {h0 : Heap} {T : List (Nat × Nat)} {b : Nat} {τ : List Nat} (wf0 : WF h0) {t i : Nat} (w : Wraps h0 b t) (hm : (t, i) ∈ T) :
    Surely h0 T (stackStringP x ((b :: τ).reverse.map some) b!".counter") (fmtScalar x (.int .int (i : Nat))) := by
  have e : Surely h0 T (stackGetP ((b :: τ).reverse.map some) b!".counter") (some (.int .int (i : Nat))) := by
    have hsp : split 62 b!".counter" = [b!".counter"] := by decide
    simp only [stackGetP, List.reverse_cons, List.map_append, List.map_cons, List.map_nil, List.reverse_append, List.reverse_nil, List.nil_append,
      List.singleton_append, getDataP, hsp, getP]
    refine Surely.bind (a := some (.int .int (i : Nat))) ?_ .ret
    refine .look fun h sm => ?_
    obtain ⟨m, e1, e2⟩ := sm.pins t i hm
    rw [sm.target wf0, (target_iff wf0).2 w]
    simp only [entries_of e1, e2]
  refine e.bind ?_
  refine .look fun h sm => ?_
  have : printBound h = 2 * h.length + 1 := rfl
  rw [this]
  simp only [sprint, ofFuel]

/-! ## Rendering -/

/-- The loop that is running is one over a collection. -/
def Job.Placed (h0 : Heap) : Job → Prop
  | .loop _ _ i l => ∃ cl pre, IsCollection h0 cl (pre ++ l) ∧ pre.length = i
  | _ => True

theorem numbered_of {h0 : Heap} {cl : Nat} {pre l : List (Option Nat)} {a t : Nat} (hc : IsCollection h0 cl (pre ++ some a :: l)) (w : Wraps h0 a t) :
    Numbered h0 t (pre.length + 1) := ⟨cl, _, pre.length, a, hc, by simp, w, rfl⟩

/-- The goroutine's own steps, when it is alone, are among those that others allow for. -/
theorem renders_apart {x : Ext} {lang : Option Language.Lang} {h0 : Heap} (sh0 : Short h0) {sc : List Doc} {job : Job} {σ : Option (List Nat)} {h h' : Heap} {s : Str}
    (r : Renders x lang sc job σ h h' s) : ∀ {T : List (Nat × Nat)}, Pins h0 T → job.Placed h0 → Apart h0 T h → Apart h0 T h' := by
  induction r with
  | document _ ih => exact fun p _ q => ih p trivial q
  | cons _ _ ih1 ih2 => exact fun p _ q => ih2 p trivial (ih1 p trivial q)
  | chosen _ _ ih => exact fun p _ q => ih p trivial q
  | reference _ _ _ _ ih => exact fun p _ q => ih p trivial q
  | referenceWith _ _ _ _ _ ih => exact fun p _ q => ih p trivial q
  | referenceWithout _ _ _ _ _ ih => exact fun p _ q => ih p trivial q
  | referenceValue _ _ _ _ ih => exact fun p _ q => ih p trivial q
  | rangeEmpty _ _ _ _ _ ih => exact fun p _ q => ih p trivial q
  | range _ _ _ hc _ _ ih => exact fun p _ q => ih p ⟨_, [], (q.shape.isCollection _ _).1 hc, rfl⟩ q
  | loop hs _ _ ih1 ih2 =>
    rintro T p ⟨cl, pre, hc, rfl⟩ q
    obtain ⟨t, m, w, hm, rfl⟩ := hs
    have hn := numbered_of hc ((q.shape.wraps _ t).1 w)
    have q1 := q.number sh0 hn hm T (fun _ h => Or.inl h) p
    exact ih2 p ⟨cl, pre ++ [some _], by simpa using hc, by simp⟩ (ih1 p trivial (by simpa using q1))
  | conditionNone _ _ _ _ ih => exact fun p _ q => ih p trivial q
  | conditionValue _ _ _ _ _ _ _ ih => exact fun p _ q => ih p trivial q
  | conditionDataset _ _ _ _ _ _ ih => exact fun p _ q => ih p trivial q
  | _ => exact fun _ _ q => q

section Main

variable {x : Ext} {th : THeap} {la : Option Nat} {lang : Option Language.Lang} {d : Doc} {h0 : Heap} {a0 : Nat}

/-- The program does the job, whatever the others do, with a large enough bound. -/
def Goes (x : Ext) (th : THeap) (la : Option Nat) (h0 : Heap) (T : List (Nat × Nat)) (sc : List Doc) (job : Job) (σ : List Nat) (s : Str) : Prop :=
  match job with
  | .document => ∀ t, InScope th t sc → Ev fun m => Surely h0 T (injectorP x th la m t (stackOf (some σ))) (stackOf (some σ), s)
  | .body l => ∀ t, InScope th t sc → Ev fun m => Surely h0 T (injectAllP (injectItemP x th la (injectorP x th la m) t) l (stackOf (some σ))) (stackOf (some σ), s)
  | .elem p => ∀ t, InScope th t sc → Ev fun m => Surely h0 T (injectItemP x th la (injectorP x th la m) t p (stackOf (some σ))) (stackOf (some σ), s)
  | .choose names => ∀ t, InScope th t sc → Ev fun m =>
      Surely h0 T (renderOptP (injectorP x th la m) (names.findSome? (found th t)) (stackOf (some σ))) (stackOf (some σ), s)
  | .loop id n i l => ∀ t c cl pre, InScope th t sc → found th t id = some c → IsCollection h0 cl (pre ++ l) → pre.length = i → Ev fun m =>
      Surely h0 T (rangeLoopP th (injectorP x th la m) t id c cl n l.length i (stackOf (some σ))) (stackOf (some σ), s)

/-- The innermost dataset is a row: the goroutine has numbered it, and the number stays if all loops give it the same. -/
def RowPin (h0 : Heap) (T : List (Nat × Nat)) (row : Bool) (σ : List Nat) : Prop :=
  row = true → ∃ b τ t i, σ = b :: τ ∧ Wraps h0 b t ∧ (OnePlace h0 b → (t, i) ∈ T)

theorem pushP_stackOf (l : List Nat) (a : Nat) : pushP (stackOf (some l)) (some a) = .ret (stackOf (some (a :: l))) := by
  simp [pushP, stackOf]

theorem popP_stackOf (l : List Nat) (a : Nat) : popP (stackOf (some (a :: l))) = .ret (stackOf (some l)) := by
  simp [popP, stackOf]

theorem sure_push {T : List (Nat × Nat)} {l : List Nat} {s : Str} {a c : Nat} {names : List Str} {t : Nat}
    (hc : names.findSome? (found th t) = some c) {rec : RenderP}
    (e : Surely h0 T (renderOptP rec (names.findSome? (found th t)) (stackOf (some (a :: l)))) (stackOf (some (a :: l)), s)) {β : Type}
    (f : Stk → Str → Prog β) {b : β} (hf : Surely h0 T (f (stackOf (some l)) s) b) :
    Surely h0 T (pushP (stackOf (some l)) (some a) >>= fun s => rec c s >>= fun r => popP r.1 >>= fun s => f s r.2) b := by
  rw [hc] at e
  simp only [renderOptP] at e
  rw [pushP_stackOf, ret_bind]
  refine e.bind ?_
  rw [popP_stackOf, ret_bind]
  exact hf

theorem injectorP_scope {t : Nat} {sc : List Doc} (hi : InView (docView th) t sc) (m : Nat) (s : Stk) :
    injectorP x th la (m + 1) t s = injectAllP (injectItemP x th la (injectorP x th la m) t) (innermost sc) s := by
  obtain ⟨o, ho, hr⟩ := (docView th).root hi
  rcases hr with hr | ⟨hr, e⟩
  · simp only [injectorP, ho, hr]
  · simp only [injectorP, ho, hr, e, injectAllP, injectItemP]
    rfl

theorem goes (hw0 : WF h0) (hsh0 : Short h0) (hl : LangIs h0 la lang) (hst : Undisturbed x d h0 a0) {sc : List Doc} {job : Job} {σ' : Option (List Nat)}
    {h h' : Heap} {s : Str} (r : Renders x lang sc job σ' h h' s) : ∀ (σ : List Nat) (row : Bool) (T : List (Nat × Nat)), σ' = some σ →
    job.Visited x d h0 a0 sc σ row → job.Placed h0 → Pins h0 T → Apart h0 T h → Ready h0 (some σ) → RowPin h0 T row σ → Goes x th la h0 T sc job σ s := by
  induction r with
  | document _ ih =>
    intro σ row T hσ hv _ hp sm rd hr t hi
    obtain ⟨n, e⟩ := ih σ row T hσ ⟨hv, fun p hp => mem_innermost hp⟩ trivial hp sm rd hr t hi
    refine ⟨n + 1, fun m hm => ?_⟩
    cases m with
    | zero => omega
    | succ m => rw [injectorP_scope hi.view]; exact e m (by omega)
  | nil => intro σ row T hσ hv _ hp sm rd hr t hi; exact .now fun m => .ret
  | cons r1 _ ih1 ih2 =>
    intro σ row T hσ hv _ hp sm rd hr t hi
    obtain ⟨hv1, hm⟩ := hv
    refine (ih1 σ row T hσ ⟨hv1, hm _ (by simp)⟩ trivial hp sm rd hr t hi).and
      (ih2 σ row T hσ ⟨hv1, fun p hp => hm p (by simp [hp])⟩ trivial hp (renders_apart hsh0 r1 hp trivial sm) rd hr t hi) fun m e1 e2 => ?_
    exact e1.bind (e2.bind .ret)
  | @chosen _ sc' _ _ _ _ names he _ ih =>
    intro σ row T hσ hv _ hp sm rd hr t hi
    have hf := hi.view.choose (Z := docView th) names
    rw [he] at hf
    generalize names.findSome? (found th t) = b at hf
    cases hf with
    | some hc => exact ih σ row T hσ (hv _ he) trivial hp sm rd hr _ hc
  | @noChoice sc' σ1 h1 names he =>
    intro σ row T hσ hv _ hp sm rd hr t hi
    have hf := hi.view.choose (Z := docView th) names
    rw [he] at hf
    generalize names.findSome? (found th t) = b at hf
    cases hf
    exact .now fun m => .ret
  | text => intro σ row T hσ hv _ hp sm rd hr t hi; exact .now fun m => .ret
  | comment => intro σ row T hσ hv _ hp sm rd hr t hi; exact .now fun m => .ret
  | @language sc' σ1 h1 dd =>
    intro σ row T hσ hv _ hp sm rd hr t hi
    refine .now fun m => ?_
    simp only [injectItemP]
    cases la with
    | none =>
      cases lang with
      | none => exact .ret
      | some l => cases hl
    | some a =>
      cases lang with
      | none => cases hl
      | some l =>
        simp only [LangIs] at hl
        refine Surely.look_bind (a := langText (some l) dd) (fun k sk => ?_) .ret
        rw [(sk.shape.lang a l).2 hl]
        simp only [langText_eq]
  | @unknown sc' σ1 h1 kk dd hu =>
    intro σ row T hσ hv _ hp sm rd hr t hi
    refine .now fun m => ?_
    cases kk <;> first | exact hu.elim | exact .ret
  | «variable» hval hsh =>
    intro σ row T hσ hv _ hp sm rd hr t hi
    cases hσ
    obtain ⟨hv1, e, up, rfl, hm⟩ := hv
    have sh0 := sm.shape
    refine .now fun m => ?_
    simp only [injectItemP, stackOf, Option.map_some]
    obtain ⟨q1, q2, _⟩ := hst e up σ row hv1 _ hm
    cases q1 with
    | noData q => exact absurd rfl q
    | counter hrow =>
      obtain ⟨b, τ, t', i, rfl, w, hpin⟩ := hr hrow
      have hin := hpin (q2 rfl b rfl)
      have hsp : split 62 b!".counter" = [b!".counter"] := by decide
      obtain ⟨m', e1, e2⟩ := sm.pins t' i hin
      have v1 := valueAt_unique (rd.shape sm.wf sh0) hval (.here (by unfold Has; rw [hsp]; exact .entry ⟨t', m', (sh0.wraps _ _).2 w, e1, e2⟩))
      subst v1
      have e3 := (shows_iff sm.wf (by simp)).1 hsh
      rw [show printBound _ = 2 * _ + 1 from rfl] at e3
      simp only [sprint, Option.some.injEq] at e3
      subst e3
      exact (sure_counter hw0 w hin).bind .ret
    | «variable» hn hpl =>
      have hv0 := (sm.same.valueAt sh0 hn _).1 hval
      have hp0 := hpl _ hv0
      exact (sure_stackString rd hn hv0 hp0 ((shows_plain sh0 hp0 _).1 hsh)).bind .ret
  | @reference _ _ _ _ _ _ _ rest hpa h1 h2 _ ih =>
    intro σ row T hσ hv _ hp sm rd hr t hi
    obtain ⟨hv1, e, up, rfl, hm⟩ := hv
    refine (ih σ row T hσ (fun sc' he => hv1.reference hm hpa h1 h2 he) trivial hp sm rd hr t hi).mono fun m e => ?_
    unfold parts at hpa
    simp only [injectItemP, doReferenceP]
    rw [hpa]
    match rest, h1, h2 with
    | [], _, _ =>
      simp only [List.headD_cons, hi.view.get, ofRes_ok_bind]
      simp only [List.findSome?_cons, List.findSome?_nil] at e
      revert e
      cases found th t _ <;> exact fun e => e
    | _ :: _ :: _ :: _, _, _ =>
      simp only [List.headD_cons, hi.view.get, ofRes_ok_bind]
      simp only [List.findSome?_cons, List.findSome?_nil] at e
      revert e
      cases found th t _ <;> exact fun e => e
  | referenceNone hpa hno =>
    intro σ row T hσ hv _ hp sm rd hr t hi
    refine .now fun m => ?_
    have := (hi.view.found _).some_iff.1 hno
    unfold parts at hpa
    simp only [injectItemP, doReferenceP, hpa, List.headD_cons, hi.view.get, ofRes_ok_bind, this]
    exact .ret
  | @referenceWith sc' σ1 h1 h1' s1 dd id key b hpa hlk hval hds _ ih =>
    intro σ row T hσ hv _ hp sm rd hr t hi
    cases hσ
    obtain ⟨hv1, e, up, rfl, hm⟩ := hv
    have sh0 := sm.shape
    have hn := ignores_with (hst e up _ row hv1 _ hm).1 hpa
    have hv0 := (sm.same.valueAt sh0 hn _).1 hval
    have hd0 := (sh0.isDataset _).1 hds
    refine (ih _ false T rfl (fun sc' he => hv1.referenceWith hm hpa hv0 hd0 he) trivial hp sm (rd.push hd0) (fun q => by cases q) t hi).mono fun m e => ?_
    obtain ⟨c, hc⟩ := hi.view.some_of hlk
    obtain ⟨o, eo, ev⟩ := sure_stack (T := T) rd hn hv0
    unfold parts at hpa
    simp only [injectItemP, doReferenceP, hpa, List.headD_cons, hi.view.get, ofRes_ok_bind, hc, stackOf, Option.map_some]
    refine eo.bind (Surely.look_bind (a := some b) (fun k sk => ?_) ?_)
    · rw [bind_asDataset, ev, sk.asDataset, asDataset_some.2 ⟨rfl, hd0⟩]
    · exact sure_push (names := [id]) (by simp [hc]) e (fun s d => .ret (s, d)) .ret
  | @referenceWithout sc' σ1 h1 h1' s1 dd id key v hpa hlk hval hds _ ih =>
    intro σ row T hσ hv _ hp sm rd hr t hi
    cases hσ
    obtain ⟨hv1, e, up, rfl, hm⟩ := hv
    have sh0 := sm.shape
    have hn := ignores_with (hst e up _ row hv1 _ hm).1 hpa
    have hv0 := (sm.same.valueAt sh0 hn _).1 hval
    have hd0 : ∀ b, v = .ptr b → ¬ IsDataset h0 b := fun b eb q => hds b eb ((sh0.isDataset _).2 q)
    refine (ih _ row T rfl (fun sc' he => hv1.referenceWithout hm hpa hv0 hd0 he) trivial hp sm rd hr t hi).mono fun m e => ?_
    obtain ⟨c, hc⟩ := hi.view.some_of hlk
    obtain ⟨o, eo, ev⟩ := sure_stack (T := T) rd hn hv0
    unfold parts at hpa
    simp only [injectItemP, doReferenceP, hpa, List.headD_cons, hi.view.get, ofRes_ok_bind, hc, stackOf, Option.map_some]
    simp only [List.findSome?_cons, hc, renderOptP] at e
    refine eo.bind (Surely.look_bind (a := none) (fun k sk => ?_) e)
    rw [bind_asDataset, ev, sk.asDataset, asDataset_none.2 hd0]
  | @referenceValue sc' σ1 h1 h1' s1 dd any key pre v text hpa hval hsh _ ih =>
    intro σ row T hσ hv _ hp sm rd hr t hi
    cases hσ
    obtain ⟨hv1, e, up, rfl, hm⟩ := hv
    have sh0 := sm.shape
    obtain ⟨hn, hpl⟩ := ignores_value (hst e up _ row hv1 _ hm).1 hpa
    have hv0 := (sm.same.valueAt sh0 hn _).1 hval
    have hp0 := hpl _ hv0
    have hs0 := (shows_plain sh0 hp0 _).1 hsh
    refine (ih _ row T rfl (fun sc' he => hv1.referenceValue hm hpa hv0 hs0 he) trivial hp sm rd hr t hi).mono fun m e => ?_
    unfold parts at hpa
    simp only [injectItemP, doReferenceP, hpa, stackOf, Option.map_some]
    refine (sure_stackString rd hn hv0 hp0 hs0).bind ?_
    simp only [hi.view.get, ofRes_ok_bind]
    simp only [List.findSome?_cons, List.findSome?_nil] at e
    revert e
    cases found th t (pre ++ text) <;> cases found th t pre <;> exact fun e => e
  | @rangeNothing sc' σ1 h1 dd key id ht hno =>
    intro σ row T hσ hv _ hp sm rd hr t hi
    cases hσ
    refine .now fun m => ?_
    simp only [injectItemP, doRangeP, target_two ht, hi.view.get, ofRes_ok_bind]
    rcases hno with hno | hno
    · rw [(hi.view.found id).some_iff.1 hno]; exact .ret
    · cases hno
  | @rangeEmpty sc' σ1 h1 h1' s1 dd key id v ht hlk hval hc _ ih =>
    intro σ row T hσ hv _ hp sm rd hr t hi
    cases hσ
    obtain ⟨hv1, e, up, rfl, hm⟩ := hv
    have sh0 := sm.shape
    have hn := ignores_range (hst e up _ row hv1 _ hm).1 ht
    have hv0 := (sm.same.valueAt sh0 hn _).1 hval
    have hc0 : ∀ c l, v = .ptr c → IsCollection h0 c l → l = [] := fun c l e q => hc c l e ((sh0.isCollection _ _).2 q)
    refine (ih _ row T rfl (fun sc' he => hv1.rangeEmpty hm ht hv0 hc0 he) trivial hp sm rd hr t hi).mono fun m e => ?_
    obtain ⟨c, hcf⟩ := hi.view.some_of hlk
    obtain ⟨o, eo, ev⟩ := sure_stack (T := T) rd hn hv0
    simp only [injectItemP, doRangeP, target_two ht, hi.view.get, ofRes_ok_bind, hcf, stackOf, Option.map_some]
    have key : Surely h0 T (injectorP x th la m ((found th t (id ++ b!".none")).getD c) (stackOf (some σ1))) (stackOf (some σ1), s1) := by
      revert e
      simp only [List.findSome?_cons, hcf]
      cases found th t (id ++ b!".none") <;> exact fun e => e
    refine eo.bind (Surely.look_bind (a := asCollection h0 v) (fun k sk => by rw [bind_asCollection, ev, sk.asCollection]) ?_)
    cases ea : asCollection h0 v with
    | none => exact key
    | some cl =>
      obtain ⟨rfl, hcl⟩ := asCollection_some.1 ea
      have he := hc0 _ _ rfl hcl
      refine Surely.look_bind (a := 0) (fun k sk => by simp only [count, sk.elems, he, List.length_nil]) ?_
      exact key
  | @range sc' σ1 h1 h1' s1 dd key id cl l ht hlk hval hc hne _ ih =>
    intro σ row T hσ hv _ hp sm rd hr t hi
    cases hσ
    obtain ⟨hv1, e, up, rfl, hm⟩ := hv
    have sh0 := sm.shape
    have hn := ignores_range (hst e up _ row hv1 _ hm).1 ht
    have hv0 := (sm.same.valueAt sh0 hn _).1 hval
    have hc0 := (sh0.isCollection _ _).1 hc
    obtain ⟨c', hc'⟩ := hi.view.some_of hlk
    refine (ih _ row T rfl (fun j b sc' hj he => hv1.range hm ht hv0 hc0 hj (by simpa using he)) ⟨cl, [], hc0, rfl⟩ hp sm rd hr t c' cl [] hi hc' hc0 rfl).mono
      fun m e => ?_
    obtain ⟨o, eo, ev⟩ := sure_stack (T := T) rd hn hv0
    have ea : asCollection h0 (.ptr cl) = some cl := asCollection_some.2 ⟨rfl, by rw [elems_of hc0]; exact hc0⟩
    simp only [injectItemP, doRangeP, target_two ht, hi.view.get, ofRes_ok_bind, hc', stackOf, Option.map_some]
    refine eo.bind (Surely.look_bind (a := some cl) (fun k sk => by rw [bind_asCollection, ev, sk.asCollection, ea]) ?_)
    refine Surely.look_bind (a := l.length) (fun k sk => by simp only [count, sk.elems, elems_of hc0]) ?_
    rw [if_pos (List.length_pos_iff.2 hne)]
    exact e
  | loopEnd => intro σ row T hσ hv _ hp sm rd hr t c cl pre _ _ _ _; exact .now fun m => .ret
  | @loop sc' σ1 h1 h2 h3 h4 s1 s2 id n i a l hs r1 r2 ih1 ih2 =>
    intro σ row T hσ hv _ hp sm rd hr t c cl pre hi hc hcl hpre
    cases hσ
    obtain ⟨tt, mm, w, hmm, rfl⟩ := hs
    have sh0 := sm.shape
    have w0 := (sh0.wraps a tt).1 w
    have hnum : Numbered h0 tt (i + 1) := by rw [← hpre]; exact numbered_of hcl w0
    have hda := wraps_isDataset w0
    classical
    -- the numbers that stay
    obtain ⟨T', hT', hpins, hsub, hrow⟩ : ∃ T', (T' = T ∨ T' = (tt, i + 1) :: T ∧ ∀ j, Numbered h0 tt j → j = i + 1) ∧ Pins h0 T' ∧ (∀ q ∈ T, q ∈ T') ∧
        (OnePlace h0 a → (tt, i + 1) ∈ T') := by
      by_cases ho : OnePlace h0 a
      · refine ⟨(tt, i + 1) :: T, Or.inr ⟨rfl, fun j hj => ho tt j (i + 1) w0 hj hnum⟩, ?_, fun q hq => List.mem_cons_of_mem _ hq, fun _ => by simp⟩
        intro t' i' hm j hj
        rcases List.mem_cons.1 hm with q | q
        · cases q; exact ho tt j (i + 1) w0 hj hnum
        · exact hp t' i' q j hj
      · exact ⟨T, Or.inl rfl, hp, fun q hq => hq, fun q => absurd q ho⟩
    have hsubT : ∀ p ∈ T', p ∈ T ∨ p = (tt, i + 1) := by
      intro p hm
      rcases hT' with rfl | ⟨rfl, _⟩
      · exact Or.inl hm
      · rcases List.mem_cons.1 hm with q | q
        · exact Or.inr q
        · exact Or.inl q
    have sm1 : Apart h0 T' (h1.set tt (.ds (mm.set b!".counter" (.int .int ((i : Int) + 1))))) := by simpa using sm.number hsh0 hnum hmm T' hsubT hpins
    have e1 := ih1 (a :: σ1) true T' rfl (fun sc' he => hv 0 a sc' rfl he) trivial hpins sm1 (rd.push hda)
      (fun _ => ⟨a, σ1, tt, i + 1, rfl, w0, hrow⟩) t hi
    have sm2 := renders_apart hsh0 r1 hpins trivial sm1
    have e2 := ih2 σ1 row T rfl (fun j b sc' hj he => hv (j + 1) b sc' (by simpa using hj) (by rw [show i + (j + 1) = i + 1 + j by omega]; exact he))
      ⟨cl, pre ++ [some a], by simpa using hcl, by simp [hpre]⟩ hp (sm2.sub hsub) rd hr t c cl (pre ++ [some a]) hi hc (by simpa using hcl) (by simp [hpre])
    refine e1.and e2 fun m e1 e2 => ?_
    obtain ⟨c', p1, p2⟩ := pickRange_eq (g := found th t) hi.view.get hc i n
    have hget : colGetAt h0 cl (i : Int) = some (some a) := by rw [← hpre]; exact colGetAt_of hcl
    simp only [List.length_cons, rangeLoopP, p1, ofRes_ok_bind]
    refine Surely.look_bind (a := some (some a)) (fun k sk => by rw [colGetAt, sk.elems]; exact congrArg _ hget) ?_
    obtain ⟨k, q⟩ := sure_push (names := rangeNames id i n) p2 e1 (fun s d => do
      let q ← rangeLoopP th (injectorP x th la m) t id c cl n l.length (i + 1) s; .ret (q.1, d ++ q.2)) ((e2.more hsub).bind .ret)
    refine ⟨k + 1, .write hnum (fun k sk => ?_) hT' q⟩
    obtain ⟨m', hm'⟩ := (sk.shape.ds tt).2 ((sh0.ds tt).1 ⟨mm, hmm⟩)
    refine ⟨m', hm', ?_⟩
    rw [(set_counter sk.wf).2 ⟨tt, m', (sk.shape.wraps a tt).2 w0, hm', rfl⟩]
    simp
  | @conditionNone sc' σ1 h1 h1' s1 dd key id v ht hval hsh _ ih =>
    intro σ row T hσ hv _ hp sm rd hr t hi
    cases hσ
    obtain ⟨hv1, e, up, rfl, hm⟩ := hv
    have sh0 := sm.shape
    obtain ⟨hn, hcl⟩ := ignores_condition (hst e up _ row hv1 _ hm).1 ht
    have hv0 := (sm.same.valueAt sh0 hn _).1 hval
    have hp0 := cond_plain hv0 hcl fun b eb q => by subst eb; exact shows_dataset_ne sm.wf ((sh0.isDataset _).2 q) hsh rfl
    have hs0 := (shows_plain sh0 hp0 _).1 hsh
    refine (ih _ row T rfl (fun sc' he => hv1.conditionNone hm ht hv0 hs0 he) trivial hp sm rd hr t hi).mono fun m e => ?_
    obtain ⟨o, eo, ev⟩ := sure_stack (T := T) rd hn hv0
    have e' : Surely h0 T (condNoneP th (injectorP x th la m) t id (found th t id) true (stackOf (some σ))) (stackOf (some σ), s1) := by
      simp only [condNoneP, if_true, hi.view.get, ofRes_ok_bind]
      simp only [List.findSome?_cons, List.findSome?_nil] at e
      revert e
      cases found th t (id ++ b!".none") <;> cases found th t id <;> exact fun e => e
    simp only [injectItemP, doConditionP, target_two ht, hi.view.get, ofRes_ok_bind]
    refine Surely.bind (a := v) (eo.bind (by rw [ev]; exact .ret)) ?_
    by_cases hnil : v = .nil
    · rw [if_pos hnil]; exact e'
    · rw [if_neg hnil]
      have hnd : asDataset h0 v = none := asDataset_none.2 fun b eb q => (hp0 b eb).1 q
      cases hcf : found th t id with
      | none =>
        rw [hcf] at e'
        exact (sure_isEmpty hw0 hnil hs0).bind e'
      | some c =>
        rw [hcf] at e'
        have cv : Surely h0 T (condValueP x th (injectorP x th la m) t id c v (stackOf (some σ))) (stackOf (some σ), [], c) := by
          refine Surely.look_bind (a := none) (fun k sk => by rw [sk.asDataset, hnd]) ?_
          refine (sure_sprint hp0 hnil hs0).bind ?_
          exact .ret
        exact cv.bind ((sure_isEmpty hw0 hnil hs0).bind (e'.bind .ret))
  | @conditionNothing sc' σ1 h1 dd key id v text ht hval hsh hne hno =>
    intro σ row T hσ hv _ hp sm rd hr t hi
    cases hσ
    obtain ⟨hv1, e, up, rfl, hm⟩ := hv
    have sh0 := sm.shape
    obtain ⟨q1, _, q3⟩ := hst e up _ row hv1 _ hm
    obtain ⟨hn, hcl⟩ := ignores_condition q1 ht
    have hv0 := (sm.same.valueAt sh0 hn _).1 hval
    have hnil : v ≠ .nil := fun e => hne (by rw [e, shows_nil] at hsh; exact hsh)
    obtain ⟨s0, hs0⟩ := q3 rfl key id v ht hv0
    obtain ⟨s', hs', hq⟩ := shows_shape hw0 sm.wf sh0 hs0
    have hs0ne : s0 ≠ [] := fun e => hne (by rw [shows_det hsh hs']; exact hq.2 e)
    have hcf := (hi.view.found id).some_iff.1 hno
    refine .now fun m => ?_
    obtain ⟨o, eo, ev⟩ := sure_stack (T := T) rd hn hv0
    simp only [injectItemP, doConditionP, target_two ht, hi.view.get, ofRes_ok_bind]
    refine Surely.bind (a := v) (eo.bind (by rw [ev]; exact .ret)) ?_
    rw [if_neg hnil, hcf]
    refine (sure_isEmpty hw0 hnil hs0).bind ?_
    cases s0 with
    | nil => exact absurd rfl hs0ne
    | cons => exact .ret
  | @conditionValue sc' σ1 h1 h1' s1 dd key id v text ht hval hds hsh hne hlk _ ih =>
    intro σ row T hσ hv _ hp sm rd hr t hi
    cases hσ
    obtain ⟨hv1, e, up, rfl, hm⟩ := hv
    have sh0 := sm.shape
    obtain ⟨hn, hcl⟩ := ignores_condition (hst e up _ row hv1 _ hm).1 ht
    have hv0 := (sm.same.valueAt sh0 hn _).1 hval
    have hp0 := cond_plain hv0 hcl fun b eb q => hds b eb ((sh0.isDataset _).2 q)
    have hs0 := (shows_plain sh0 hp0 _).1 hsh
    refine (ih _ row T rfl (fun sc' he => hv1.conditionValue hm ht hv0 (fun b eb => (hp0 b eb).1) hs0 he) trivial hp sm rd hr t hi).mono fun m e => ?_
    have hnil : v ≠ .nil := fun e => hne (by rw [e, shows_nil] at hsh; exact hsh)
    obtain ⟨c, hc⟩ := hi.view.some_of hlk
    obtain ⟨o, eo, ev⟩ := sure_stack (T := T) rd hn hv0
    have e' : Surely h0 T (injectorP x th la m ((found th t (id ++ b!"." ++ text)).getD c) (stackOf (some σ))) (stackOf (some σ), s1) := by
      revert e
      simp only [List.findSome?_cons, hc]
      cases found th t (id ++ b!"." ++ text) <;> exact fun e => e
    simp only [injectItemP, doConditionP, target_two ht, hi.view.get, ofRes_ok_bind]
    refine Surely.bind (a := v) (eo.bind (by rw [ev]; exact .ret)) ?_
    rw [if_neg hnil, hc]
    have cv : Surely h0 T (condValueP x th (injectorP x th la m) t id c v (stackOf (some σ)))
        (stackOf (some σ), s1, (found th t (id ++ b!"." ++ text)).getD c) := by
      refine Surely.look_bind (a := none) (fun k sk => by rw [sk.asDataset, asDataset_none.2 fun b eb => (hp0 b eb).1]) ?_
      refine (sure_sprint hp0 hnil hs0).bind ?_
      rw [if_pos hne, hi.view.get, ofRes_ok_bind]
      exact e'.bind .ret
    refine cv.bind ((sure_isEmpty hw0 hnil hs0).bind ?_)
    cases text with
    | nil => exact absurd rfl hne
    | cons => simp only [condNoneP, List.isEmpty_cons, Bool.false_eq_true, if_false, ret_bind, List.append_nil]; exact .ret
  | @conditionDataset sc' σ1 h1 h1' s1 dd key id text a ht hval hds hlk r1 hsh ih =>
    intro σ row T hσ hv _ hp sm rd hr t hi
    cases hσ
    obtain ⟨hv1, e, up, rfl, hm⟩ := hv
    have sh0 := sm.shape
    obtain ⟨q1, _, q3⟩ := hst e up _ row hv1 _ hm
    have hn := (ignores_condition q1 ht).1
    have hv0 := (sm.same.valueAt sh0 hn _).1 hval
    have hd0 := (sh0.isDataset _).1 hds
    obtain ⟨s0, hs0⟩ := q3 rfl key id _ ht hv0
    have hne := shows_dataset_ne hw0 hd0 hs0
    refine (ih _ false T rfl (fun sc' he => hv1.conditionDataset hm ht hv0 hd0 he) trivial hp sm (rd.push hd0) (fun q => by cases q) t hi).mono fun m e => ?_
    obtain ⟨c, hc⟩ := hi.view.some_of hlk
    obtain ⟨o, eo, ev⟩ := sure_stack (T := T) rd hn hv0
    have hch : [id ++ b!".array", id].findSome? (found th t) = some ((found th t (id ++ b!"." ++ b!"array")).getD c) := by
      simp only [List.findSome?_cons, hc]
      have : id ++ b!"." ++ b!"array" = id ++ b!".array" := by simp
      rw [this]
      cases found th t (id ++ b!".array") <;> rfl
    have cv : Surely h0 T (condValueP x th (injectorP x th la m) t id c (.ptr a) (stackOf (some σ1)))
        (stackOf (some σ1), s1, (found th t (id ++ b!"." ++ b!"array")).getD c) := by
      refine Surely.look_bind (a := some a) (fun k sk => by rw [sk.asDataset, asDataset_some.2 ⟨rfl, hd0⟩]) ?_
      simp only [hi.view.get, ofRes_ok_bind]
      exact sure_push hch e (fun s d => .ret (s, d, (found th t (id ++ b!"." ++ b!"array")).getD c)) .ret
    simp only [injectItemP, doConditionP, target_two ht, hi.view.get, ofRes_ok_bind]
    refine Surely.bind (a := .ptr a) (eo.bind (by rw [ev]; exact .ret)) ?_
    rw [if_neg (by simp), hc]
    refine cv.bind ((sure_isEmpty hw0 (by simp) hs0).bind ?_)
    cases s0 with
    | nil => exact absurd rfl hne
    | cons => simp only [condNoneP, List.isEmpty_cons, Bool.false_eq_true, if_false, ret_bind, List.append_nil]; exact .ret
  | dump hd =>
    intro σ row T hσ hv _ hp sm rd hr t hi
    obtain ⟨hv1, e, up, rfl, hm⟩ := hv
    cases (hst e up _ row hv1 _ hm).1 with
    | noData _ _ _ _ q => exact absurd rfl q
  | dumpEmpty hd =>
    intro σ row T hσ hv _ hp sm rd hr t hi
    obtain ⟨hv1, e, up, rfl, hm⟩ := hv
    cases (hst e up _ row hv1 _ hm).1 with
    | noData _ _ _ _ q => exact absurd rfl q
  | dumpNothing hd =>
    intro σ row T hσ hv _ hp sm rd hr t hi
    obtain ⟨hv1, e, up, rfl, hm⟩ := hv
    cases (hst e up _ row hv1 _ hm).1 with
    | noData _ _ _ _ q => exact absurd rfl q

end Main

end Xcore.Template
