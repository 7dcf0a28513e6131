import Verif.Spec.TemplateRender

/-!
# Rendering depends on little

`injector` with a larger bound, or on another template that looks the same through the names its elements use, gives the same outcome.
-/

namespace Xcore.Template

open Xcore.Dataset

/-- The first outcome is that the bound was too small, or both are the same. -/
def Le {α : Type} (r r' : Res α) : Prop := r = .diverge ∨ r = r'

theorem Le.refl {α : Type} (r : Res α) : Le r r := Or.inr rfl

theorem Le.bind {α β : Type} {r r' : Res α} {f f' : α → Res β} (h : Le r r') (hf : ∀ a, Le (f a) (f' a)) : Le (r >>= f) (r' >>= f') := by
  rcases h with rfl | rfl
  · exact Or.inl rfl
  · cases r with
    | ok a => exact hf a
    | panic => exact .refl _
    | diverge => exact .refl _

theorem Le.antisymm {α : Type} {r r' : Res α} (h : Le r r') (h' : Le r' r) : r = r' := by
  rcases h with rfl | rfl
  · rcases h' with rfl | rfl <;> rfl
  · rfl

theorem Le.ok {α : Type} {r r' : Res α} (h : Le r r') {a : α} (e : r = .ok a) : r' = .ok a := by
  rcases h with rfl | rfl
  · cases e
  · exact e

/-- Both absent or both present and related. -/
inductive OptR (R : Nat → Nat → Prop) : Option Nat → Option Nat → Prop where
  | none : OptR R none none
  | some {c c' : Nat} : R c c' → OptR R (some c) (some c')

/-- Outcomes of lookups that are the same up to `R`. -/
inductive SimRes (R : Nat → Nat → Prop) : Res (Option Nat) → Res (Option Nat) → Prop where
  | ok {o o' : Option Nat} : OptR R o o' → SimRes R (.ok o) (.ok o')
  | panic : SimRes R .panic .panic
  | diverge : SimRes R .diverge .diverge

theorem SimRes.bind {R : Nat → Nat → Prop} {β : Type} {r r' : Res (Option Nat)} {f f' : Option Nat → Res β} (h : SimRes R r r')
    (hf : ∀ o o', OptR R o o' → Le (f o) (f' o')) : Le (r >>= f) (r' >>= f') := by
  cases h with
  | ok h => exact hf _ _ h
  | panic => exact .refl _
  | diverge => exact .refl _

/-- Lookups that cannot be told apart by the elements of the template. -/
def SimNames (R : Nat → Nat → Prop) (th th' : THeap) (t t' : Nat) (p : Param) : Prop :=
  ∀ v, Names p v → SimRes R (getTemplate th t v) (getTemplate th' t' v)

theorem renderOpt_le {R : Nat → Nat → Prop} {rec rec' : Render} (hr : ∀ c c' s, R c c' → Le (rec c s) (rec' c' s)) {o o' : Option Nat} (h : OptR R o o')
    (s : St) : Le (renderOpt rec o s) (renderOpt rec' o' s) := by
  cases h with
  | none => exact .refl _
  | some h => exact hr _ _ s h

theorem OptR.getD {R : Nat → Nat → Prop} {o o' : Option Nat} (h : OptR R o o') {c c' : Nat} (hc : R c c') : R (o.getD c) (o'.getD c') := by
  cases h with
  | none => exact hc
  | some h => exact h

theorem OptR.or {R : Nat → Nat → Prop} {o o' q q' : Option Nat} (h : OptR R o o') (hc : OptR R q q') : OptR R (o.or q) (o'.or q') := by
  cases h with
  | none => exact hc
  | some h => exact .some h

theorem split_ne_nil' (c : UInt8) (s : Str) : split c s ≠ [] := by
  cases s with
  | nil => simp [split]
  | cons a s =>
    simp only [split]
    split
    · simp
    · split <;> simp

theorem twoNames_target (d : Str) : Target d (twoNames d).1 (twoNames d).2 := by
  unfold Target twoNames parts
  cases e : split 58 d with
  | nil => exact absurd e (split_ne_nil' _ _)
  | cons a l =>
    cases l with
    | nil => exact Or.inl ⟨rfl, rfl⟩
    | cons b l => exact Or.inr ⟨l, rfl⟩

variable {R : Nat → Nat → Prop} {th th' : THeap} {rec rec' : Render} {t t' : Nat}

theorem doReference_le (x : Ext) (hr : ∀ c c' s, R c c' → Le (rec c s) (rec' c' s)) {d : Str} (hn : SimNames R th th' t t' ⟨.reference, d⟩) (s : St) :
    Le (doReference x th rec t d s) (doReference x th' rec' t' d s) := by
  have plain : ∀ id rest, split 58 d = id :: rest → rest.length ≠ 2 → SimRes R (getTemplate th t id) (getTemplate th' t' id) :=
    fun id rest e hl => hn id (.reference e hl)
  have valued : ∀ a b c text, split 58 d = [a, b, c] → SimRes R (getTemplate th t (c ++ text)) (getTemplate th' t' (c ++ text)) :=
    fun a b c text e => hn _ (.referenceValue e)
  have hne := split_ne_nil' 58 d
  unfold doReference
  generalize split 58 d = xid at plain valued hne
  match xid with
  | [] => exact absurd rfl hne
  | [id] =>
    simp only [List.headD_cons]
    refine (plain id [] rfl (by simp)).bind fun o o' ho => ?_
    cases ho with
    | none => exact .refl _
    | some h => exact hr _ _ _ h
  | [id, key] =>
    simp only [List.headD_cons]
    refine (plain id [key] rfl (by simp)).bind fun o o' ho => ?_
    cases ho with
    | none => exact .refl _
    | some h =>
      simp only
      cases s.stack with
      | none => exact .refl _
      | some l =>
        refine (Le.refl _).bind fun dcl => ?_
        cases dcl.bind (asDataset s.heap) with
        | none => exact hr _ _ _ h
        | some ds => exact (Le.refl _).bind fun s' => (hr _ _ _ h).bind fun r => .refl _
  | [a, field, pre] =>
    simp only
    cases s.stack with
    | none => exact .refl _
    | some l =>
      refine (Le.refl _).bind fun value => (valued _ _ _ value rfl).bind fun o o' ho => ?_
      cases ho with
      | none => exact (by simpa using valued _ _ _ [] rfl : SimRes R (getTemplate th t pre) (getTemplate th' t' pre)).bind fun o o' ho => renderOpt_le hr ho s
      | some h => exact hr _ _ _ h
  | id :: b :: c :: e :: rest =>
    simp only [List.headD_cons]
    refine (plain id _ rfl (by simp)).bind fun o o' ho => ?_
    cases ho with
    | none => exact .refl _
    | some h => exact hr _ _ _ h

theorem pickRange_le {d key id : Str} (hd : Target d key id) (hn : SimNames R th th' t t' ⟨.range, d⟩) {c c' : Nat} (hc : R c c') (i n : Nat) {β : Type}
    {f f' : Nat → Res β} (hf : ∀ c c', R c c' → Le (f c) (f' c')) : Le (pickRange th t id c i n >>= f) (pickRange th' t' id c' i n >>= f') := by
  have step : ∀ (b : Prop) [Decidable b] (v : Str), (b → v ∈ rangeNames id i n) → ∀ o o', OptR R o o' → ∀ {f f' : Option Nat → Res β},
      (∀ o o', OptR R o o' → Le (f o) (f' o')) →
      Le ((if o = none ∧ b then getTemplate th t v else .ok o) >>= f) ((if o' = none ∧ b then getTemplate th' t' v else .ok o') >>= f') := by
    intro b _ v hv o o' ho f f' hf
    cases ho with
    | none =>
      by_cases hb : b
      · simp only [hb, and_self, if_true]
        exact (hn v (.rangeItem hd (hv hb))).bind hf
      · simp only [hb, and_false, if_false]
        exact hf _ _ .none
    | some h => simp only [reduceCtorEq, false_and, if_false]; exact hf _ _ (.some h)
  have assoc : ∀ {α β γ : Type} (r : Res α) (f : α → Res β) (g : β → Res γ), (r >>= f) >>= g = r >>= fun a => f a >>= g := by
    intro α β γ r f g; cases r <;> rfl
  unfold pickRange
  simp only [assoc]
  refine (hn _ (.rangeItem (i := i) (n := n) hd (by simp [rangeNames]))).bind fun o o' ho => ?_
  refine step (i = 0) _ (by intro h; simp [rangeNames, h]) o o' ho fun o o' ho => ?_
  refine step (i + 1 = n) _ (by intro h; simp [rangeNames, h]) o o' ho fun o o' ho => ?_
  refine step (i % 2 = 0) _ (by intro h; simp [rangeNames, h]) o o' ho fun o o' ho => ?_
  exact hf _ _ (ho.getD hc)

theorem rangeLoop_le (hr : ∀ c c' s, R c c' → Le (rec c s) (rec' c' s)) {d key id : Str} (hd : Target d key id)
    (hn : SimNames R th th' t t' ⟨.range, d⟩) {c c' : Nat} (hc : R c c') (cl n : Nat) : ∀ (k i : Nat) (s : St),
    Le (rangeLoop th rec t id c cl n k i s) (rangeLoop th' rec' t' id c' cl n k i s) := by
  intro k
  induction k with
  | zero => intro i s; exact .refl _
  | succ k ih =>
    intro i s
    simp only [rangeLoop]
    refine pickRange_le hd hn hc i n fun tmp tmp' ht => ?_
    cases colGetAt s.heap cl i with
    | none => exact .refl _
    | some o =>
      cases o with
      | none => exact .refl _
      | some dcl =>
        simp only
        exact (Le.refl _).bind fun h => (Le.refl _).bind fun s' => (hr _ _ _ ht).bind fun r => (Le.refl _).bind fun s' => (ih _ _).bind fun q => .refl _

theorem doRange_le (hr : ∀ c c' s, R c c' → Le (rec c s) (rec' c' s)) {d : Str} (hn : SimNames R th th' t t' ⟨.range, d⟩) (s : St) :
    Le (doRange th rec t d s) (doRange th' rec' t' d s) := by
  have hd := twoNames_target d
  unfold doRange
  simp only
  generalize (twoNames d).1 = key at hd
  generalize (twoNames d).2 = id at hd
  refine (hn _ (.range hd)).bind fun o o' ho => ?_
  cases ho with
  | none => exact .refl _
  | some h =>
    cases s.stack with
    | none => exact .refl _
    | some l =>
      simp only
      have none_le : Le (getTemplate th t (id ++ b!".none") >>= fun tmp => rec (tmp.getD _) s) (getTemplate th' t' (id ++ b!".none") >>= fun tmp => rec' (tmp.getD _) s) :=
        (hn _ (.rangeNone hd)).bind fun o o' ho => hr _ _ _ (ho.getD h)
      refine (Le.refl _).bind fun r => ?_
      cases r.bind (asCollection s.heap) with
      | none => exact none_le
      | some cl =>
        simp only
        split
        · exact rangeLoop_le hr hd hn h cl _ _ _ _
        · exact none_le

theorem condNone_le (hr : ∀ c c' s, R c c' → Le (rec c s) (rec' c' s)) {d key id : Str} (hd : Target d key id)
    (hn : SimNames R th th' t t' ⟨.condition, d⟩) {o o' : Option Nat} (ho : OptR R o o') (e : Bool) (s : St) :
    Le (condNone th rec t id o e s) (condNone th' rec' t' id o' e s) := by
  unfold condNone
  cases e with
  | false => exact .refl _
  | true =>
    have hv : Names ⟨.condition, d⟩ (id ++ b!".none") := by
      have := Names.conditionValue (text := b!"none") hd (by decide)
      simpa using this
    simp only [if_true]
    exact (hn _ hv).bind fun q q' hq => renderOpt_le hr (hq.or ho) s

theorem doCondition_le (x : Ext) (hr : ∀ c c' s, R c c' → Le (rec c s) (rec' c' s)) {d : Str} (hn : SimNames R th th' t t' ⟨.condition, d⟩) (s : St) :
    Le (doCondition x th rec t d s) (doCondition x th' rec' t' d s) := by
  have hd := twoNames_target d
  unfold doCondition
  simp only
  generalize (twoNames d).1 = key at hd
  generalize (twoNames d).2 = id at hd
  refine (hn _ (.condition hd)).bind fun o o' ho => ?_
  refine (Le.refl _).bind fun val => ?_
  by_cases hv : val = .nil
  · rw [if_pos hv, if_pos hv]
    exact condNone_le hr hd hn ho _ _
  · rw [if_neg hv, if_neg hv]
    cases ho with
    | none => exact (Le.refl _).bind fun sv => condNone_le hr hd hn .none _ _
    | @some c c' hc =>
      simp only
      have key : ∀ {β : Type} {f f' : St × Str × Nat → Res β}, (∀ s a c c', R c c' → Le (f (s, a, c)) (f' (s, a, c'))) →
          Le (condValue x th rec t id c val s >>= f) (condValue x th' rec' t' id c' val s >>= f') := by
        intro β f f' hf
        have assoc : ∀ {α β γ : Type} (r : Res α) (f : α → Res β) (g : β → Res γ), (r >>= f) >>= g = r >>= fun a => f a >>= g := by
          intro α β γ r f g; cases r <;> rfl
        unfold condValue
        cases asDataset s.heap val with
        | some ds =>
          simp only [assoc]
          exact (Le.refl _).bind fun s' => (hn _ (.conditionValue hd (by decide))).bind fun o o' ho => (hr _ _ _ (ho.getD hc)).bind fun q => (Le.refl _).bind fun s'' =>
            hf _ _ _ _ (ho.getD hc)
        | none =>
          simp only [assoc]
          refine (Le.refl _).bind fun sv => ?_
          by_cases he : sv ≠ []
          · simp only [if_pos he, assoc]
            exact (hn _ (.conditionValue hd he)).bind fun o o' ho => (hr _ _ _ (ho.getD hc)).bind fun q => hf _ _ _ _ (ho.getD hc)
          · simp only [if_neg he]
            exact hf _ _ _ _ hc
      refine key fun s a c c' hc => ?_
      exact (Le.refl _).bind fun sv => (condNone_le hr hd hn (.some hc) _ _).bind fun q => .refl _

theorem injectItem_le (x : Ext) (lang : Option Nat) (hr : ∀ c c' s, R c c' → Le (rec c s) (rec' c' s)) {p : Param} (hn : SimNames R th th' t t' p) (s : St) :
    Le (injectItem x th lang rec t p s) (injectItem x th' lang rec' t' p s) := by
  obtain ⟨k, d⟩ := p
  cases k with
  | reference => exact doReference_le x hr hn s
  | range => exact doRange_le hr hn s
  | condition => exact doCondition_le x hr hn s
  | _ => exact .refl _

theorem injectAll_le {f f' : Param → St → Res (St × Str)} : ∀ (l : List Param) (s : St), (∀ p ∈ l, ∀ s, Le (f p s) (f' p s)) → Le (injectAll f l s) (injectAll f' l s) := by
  intro l
  induction l with
  | nil => intro s _; exact .refl _
  | cons p l ih =>
    intro s h
    exact (h p (by simp) s).bind fun r => (ih _ fun p hp => h p (by simp [hp])).bind fun q => .refl _

/-- Templates that look the same through the names their elements use. -/
structure Sim (th th' : THeap) (R : Nat → Nat → Prop) : Prop where
  root : ∀ t t', R t t' → th[t]?.map Tpl.root = th'[t']?.map Tpl.root
  names : ∀ t t' o root p, R t t' → th[t]? = some o → o.root = some root → p ∈ root → SimNames R th th' t t' p

/-- Rendering of templates that look the same, with a larger bound. -/
theorem injector_le (x : Ext) {th th' : THeap} {R : Nat → Nat → Prop} (hs : Sim th th' R) (lang : Option Nat) : ∀ (n m : Nat), n ≤ m →
    ∀ t t' s, R t t' → Le (injector x th lang n t s) (injector x th' lang m t' s) := by
  intro n
  induction n with
  | zero => intro m _ t t' s _; exact Or.inl rfl
  | succ n ih =>
    intro m hm t t' s h
    cases m with
    | zero => omega
    | succ m =>
      have hroot := hs.root t t' h
      simp only [injector]
      cases e : th[t]? with
      | none =>
        rw [e] at hroot
        cases e' : th'[t']? with
        | none => exact .refl _
        | some o' => rw [e'] at hroot; cases hroot
      | some o =>
        rw [e] at hroot
        cases e' : th'[t']? with
        | none => rw [e'] at hroot; cases hroot
        | some o' =>
          rw [e'] at hroot
          simp only [Option.map_some, Option.some.injEq] at hroot
          simp only
          cases er : o.root with
          | none => rw [er] at hroot; rw [← hroot]; exact .refl _
          | some root =>
            rw [er] at hroot
            rw [← hroot]
            exact injectAll_le root s fun p hp s' => injectItem_le x lang (fun c c' s hc => ih m (by omega) c c' s hc) (hs.names t t' o root p h e er hp) s'

theorem Sim.refl (th : THeap) : Sim th th Eq :=
  ⟨fun t t' e => by rw [e], fun t t' o root p e _ _ _ v _ => by
    subst e
    cases getTemplate th t v with
    | ok o => cases o with
      | none => exact .ok .none
      | some c => exact .ok (.some rfl)
    | panic => exact .panic
    | diverge => exact .diverge⟩

theorem OptR.symm {o o' : Option Nat} (h : OptR R o o') : OptR (fun a b => R b a) o' o := by
  cases h with
  | none => exact .none
  | some h => exact .some h

theorem SimRes.symm {r r' : Res (Option Nat)} (h : SimRes R r r') : SimRes (fun a b => R b a) r' r := by
  cases h with
  | ok h => exact .ok h.symm
  | panic => exact .panic
  | diverge => exact .diverge

theorem Sim.symm (h : Sim th th' R) : Sim th' th fun a b => R b a :=
  ⟨fun t t' e => (h.root t' t e).symm, fun t t' o root p e ho hr hp v hv => by
    have := h.root t' t e
    cases e' : th[t']? with
    | none => rw [e', ho] at this; cases this
    | some o' =>
      rw [e', ho] at this
      simp at this
      exact (h.names t' t o' root p e e' (by rw [this, hr]) hp v hv).symm⟩

/-- A larger bound changes nothing. -/
theorem injector_mono (x : Ext) (th : THeap) (lang : Option Nat) {n m : Nat} (h : n ≤ m) (t : Nat) (s : St) :
    Le (injector x th lang n t s) (injector x th lang m t s) := injector_le x (Sim.refl th) lang n m h t t s rfl

/-- Templates that look the same render the same. -/
theorem injector_congr (x : Ext) (hs : Sim th th' R) (lang : Option Nat) (n : Nat) {t t' : Nat} (h : R t t') (s : St) :
    injector x th lang n t s = injector x th' lang n t' s :=
  (injector_le x hs lang n n (Nat.le_refl _) t t' s h).antisymm (injector_le x hs.symm lang n n (Nat.le_refl _) t' t s h)

end Xcore.Template
