import Verif.Proof.TemplateBuild
import Verif.Proof.TemplateFrame
import Verif.Proof.TemplateBroken

/-!
# Properties C53, C54, C58: clones of templates, failed loads

`clone n th t = .ok (th', c)`: `Clone` of the template at address `t` returns the template at address `c`; the number bounds the depth of
nested calls.
-/

namespace Xcore.Template

open Xcore.Dataset (Ext Heap)

/-! ## C53 -/

/-- **C53** `Clone` of a template of a family returns (any bound above the number of templates in memory is enough). -/
theorem C53_clone_returns {th : THeap} {S : Nat → Prop} (hS : Family th S) {t : Nat} (ht : S t) (n : Nat) (hn : th.length < n) :
    ∃ th' c, clone n th t = .ok (th', c) := by
  obtain ⟨l, hl⟩ := hS.chain t ht
  exact clone_total hS n t l ht hl (by omega) th id (fun _ => False) (cov_refl hS) (fun _ h => h.elim)

/-- **C53** After `Clone`, the clone, which is a new template, renders all data as the original did, and so does every template of the
family itself: same text, same effects on the data, and if rendering does not end or panics, the same. -/
theorem C53_clone_renders_like_original {th th' : THeap} {S : Nat → Prop} (hS : Family th S) {t c n : Nat} (ht : S t) (e : clone n th t = .ok (th', c)) :
    th.length ≤ c ∧ ∀ (x : Ext) (m : Nat) (h : Heap) (data : Option Nat), execute x th' m c h data = execute x th m t h data ∧
      ∀ a, S a → execute x th' m a h data = execute x th m a h data := by
  obtain ⟨k1, org, k2, k3, k4, k5⟩ := clone_cov hS n th id (fun _ => False) t th' c (cov_refl hS) ht (fun _ h => h.elim) e
  refine ⟨by omega, fun x m h data => ⟨?_, fun a ha => ?_⟩⟩
  · exact (execute_sim x (cov_sim hS k3) m ⟨k4, k5, ht⟩ h data).symm
  · have hl := hS.lt ha
    exact (execute_sim x (cov_sim hS k3) m ⟨by omega, k2 a hl, ha⟩ h data).symm

/-- **C53** The case of a template compiled from a text. -/
theorem C53_clone_of_compiled {th : THeap} (hn : SubsNodup th) {t : Nat} {d : Doc} (hi : InScope th t [d]) :
    ∃ th' c, clone (th.length + 1) th t = .ok (th', c) ∧ th.length ≤ c ∧ ∀ (x : Ext) (m : Nat) (h : Heap) (data : Option Nat),
      execute x th' m c h data = execute x th m t h data ∧ execute x th' m t h data = execute x th m t h data := by
  have hS := compiled_family hn
  obtain ⟨th', c, e⟩ := C53_clone_returns hS ⟨_, hi⟩ (th.length + 1) (by omega)
  obtain ⟨q1, q2⟩ := C53_clone_renders_like_original hS ⟨_, hi⟩ e
  exact ⟨th', c, e, q1, fun x m h data => ⟨(q2 x m h data).1, (q2 x m h data).2 t ⟨_, hi⟩⟩⟩

/-- A template with nested boxes, one with two names: all its templates are a family. -/
def treeText : Str := b!"&&a&&[[a|b]]<&&c&&>[[c]]{{x}}[[]][[]]"

def treeHeap : THeap := (newFromString [] treeText).1

theorem tree_family : Family treeHeap (· < 3) := by
  have e : treeHeap = [⟨[], some [⟨.reference, b!"a"⟩], some [(b!"a", 1), (b!"b", 1)], none⟩,
      ⟨b!"a|b", some [⟨.string, b!"<"⟩, ⟨.reference, b!"c"⟩, ⟨.string, b!">"⟩], some [(b!"c", 2)], some 0⟩, ⟨b!"c", some [⟨.variable, b!"x"⟩], none, some 1⟩] := by
    decide +kernel
  rw [e]
  refine ⟨fun a ha => ?_, fun a v s ha hv => ?_, fun a ha => ?_⟩
  · match a, ha with
    | 0, _ => exact ⟨_, rfl, by intro m hm; cases hm; simp [AMap.Nodup, AMap.keys], by simp⟩
    | 1, _ => exact ⟨_, rfl, by intro m hm; cases hm; simp [AMap.Nodup, AMap.keys], by simp⟩
    | 2, _ => exact ⟨_, rfl, by simp, by simp⟩
  · match a, ha with
    | 0, _ =>
      simp only [Registered, List.getElem?_cons_zero, Option.bind_some, Option.getD_some, AMap.get] at hv
      split at hv
      · cases hv; exact ⟨by decide, rfl⟩
      · split at hv
        · cases hv; exact ⟨by decide, rfl⟩
        · cases hv
    | 1, _ =>
      simp [Registered, AMap.get] at hv
      obtain ⟨_, rfl⟩ := hv
      exact ⟨by decide, rfl⟩
    | 2, _ => simp [Registered] at hv
  · match a, ha with
    | 0, _ => exact ⟨_, .top rfl rfl⟩
    | 1, _ => exact ⟨_, .sub rfl rfl (.top rfl rfl)⟩
    | 2, _ => exact ⟨_, .sub rfl rfl (.sub rfl rfl (.top rfl rfl))⟩

example : ∃ th' c, clone 4 treeHeap 0 = .ok (th', c) := C53_clone_returns tree_family (by decide) 4 (by decide +kernel)

/-! ## C54 -/

/-- **C54** Not true: `AddTemplate` on the clone changes what the original renders, since the boxes of the original have the clone as
their father. -/
theorem C54_clone_is_not_independent : ∃ th' th'' c s, clone 5 (newFromString [] b!"&&a&&[[a]]&&x&&[[]]").1 0 = .ok (th', c) ∧
    newFromString th' b!"new" = (th'', some s) ∧ ∀ (x : Ext) (h : Heap),
      execute x th'' 3 0 h none = .ok (h, []) ∧ execute x (addTemplate th'' c b!"x" s) 3 0 h none = .ok (h, b!"new") := by
  refine ⟨[⟨[], some [⟨.reference, b!"a"⟩], some [(b!"a", 1)], none⟩, ⟨b!"a", some [⟨.reference, b!"x"⟩], none, some 2⟩,
    ⟨[], some [⟨.reference, b!"a"⟩], some [(b!"a", 3)], none⟩, ⟨b!"a", some [⟨.reference, b!"x"⟩], none, some 0⟩], _, 2, 4, by decide +kernel, rfl, fun x h => ⟨rfl, rfl⟩⟩

/-- Loading a text without boxes. -/
theorem load_without_boxes {th : THeap} {t : Nat} {o : Tpl} (ht : th[t]? = some o) {s : Str} {l : List (Str × Param)} (hr : Reads s l)
    (hb : ∀ p ∈ l.map Prod.snd, p.kind ≠ .start ∧ p.kind ≠ .stop) :
    (loadString th t s).2 = false ∧ (∀ b, b < th.length → (loadString th t s).1[b]?.map Tpl.father = th[b]?.map Tpl.father) ∧
    (∀ b, b < th.length → b ≠ t → (loadString th t s).1[b]?.map Tpl.root = th[b]?.map Tpl.root) ∧
    ∀ b v, b < th.length → Registered (loadString th t s).1 b v = Registered th b v := by
  have hbal : Balanced (lex s) := by
    rw [lex_eq hr]
    have c1 : ∀ (m : List Param), (∀ p ∈ m, p ∈ l.map Prod.snd) → m.countP (fun p => p.kind = .stop) = 0 ∧ m.countP (fun p => p.kind = .start) = 0 := by
      intro m hm
      simp only [List.countP_eq_zero, decide_eq_true_eq]
      exact ⟨fun p hp => (hb p (hm p hp)).2, fun p hp => (hb p (hm p hp)).1⟩
    refine ⟨fun a b e => ?_, ?_⟩
    · rw [(c1 a fun p hp => by rw [e]; simp [hp]).1]; exact Nat.zero_le _
    · rw [(c1 _ fun p hp => hp).1, (c1 _ fun p hp => hp).2]
  obtain ⟨d, hd, hlex⟩ := (balanced_doc (lex_lexed s)).1 hbal
  have hfind : ∀ v, d.find v = none := by
    rw [lex_eq hr] at hlex
    rw [hlex] at hb
    clear hlex hd
    intro v
    induction d with
    | nil => rfl
    | elem p r ih => exact ih fun q hq => hb q (by simp [Doc.tokens, hq])
    | box n b r => exact absurd rfl (hb ⟨.start, n⟩ (by simp [Doc.tokens])).1
  have hl : t < th.length := (List.getElem?_eq_some_iff.1 ht).1
  obtain ⟨th1, lb, sb, e1, _, e3, e4, e5, e6⟩ := compile_doc ht hd hlex
  have e1 : loadString th t s = (th1, false) := e1
  rw [e1]
  refine ⟨rfl, fun b hbl => ?_, fun b hbl hbt => by rw [e3 b hbl hbt], fun b v hbl => ?_⟩
  · by_cases hbt : b = t
    · subst hbt; simp [e4, ht]
    · simp only; rw [e3 b hbl hbt]
  · by_cases hbt : b = t
    · subst hbt
      have := e6.at.find v
      rw [hfind v] at this
      simp only [Registered, e4, ht, Option.bind_some]
      rw [e5, show lastNamed lb v = none from this]
      rfl
    · simp only [Registered]; rw [e3 b hbl hbt]

/-- **C54** What holds: give the clone (or the original) a new text without boxes; the other one does not change. -/
theorem C54_new_text_partial {th th' : THeap} {S : Nat → Prop} (hS : Family th S) {t c n : Nat} {o : Tpl} (ht : S t) (ho : th[t]? = some o)
    (htop : o.father = none) (e : clone n th t = .ok (th', c)) {s : Str} {l : List (Str × Param)} (hr : Reads s l)
    (hb : ∀ p ∈ l.map Prod.snd, p.kind ≠ .start ∧ p.kind ≠ .stop) (x : Ext) (m : Nat) (h : Heap) (data : Option Nat) :
    (loadString th' c s).2 = false ∧ execute x (loadString th' c s).1 m t h data = execute x th m t h data ∧
    (loadString th' t s).2 = false ∧ execute x (loadString th' t s).1 m c h data = execute x th m t h data := by
  obtain ⟨k1, org, k2, k3, k4, k5⟩ := clone_cov hS n th id (fun _ => False) t th' c (cov_refl hS) ht (fun _ h => h.elim) e
  have hl := hS.lt ht
  have hot : org t = t := k2 t hl
  have key : ∀ a b, a < th'.length → org a = t → b < th'.length → org b = t → b ≠ a → (loadString th' a s).2 = false ∧
      execute x (loadString th' a s).1 m b h data = execute x th m t h data := by
    intro a b ha hoa hb' hob hne
    obtain ⟨q1, q2, q3, q4⟩ := load_without_boxes (List.getElem?_eq_getElem ha) hr hb
    refine ⟨q1, ?_⟩
    rw [execute_sim x (cov_sim hS k3) m ⟨hb', hob, ht⟩ h data]
    refine (execute_sim x (frame_sim (k3.closed hS) (a := a) (fun _ => True) (fun b hb => q2 b hb.1) (fun b hb hne => q3 b hb.1 hne)
      (fun b v hb _ => q4 b v hb.1) (fun _ _ _ _ _ _ _ _ _ _ _ => trivial)
      (fun b v hb => k3.not_registered hS (o := o) (by rw [hoa]; exact ho) htop hb.1 hb.2)) m ⟨rfl, ⟨hb', by rw [hob]; exact ht⟩, hne⟩ h data).symm
  obtain ⟨r1, r2⟩ := key c t k4 k5 (by omega) hot (by omega)
  obtain ⟨r3, r4⟩ := key t c (by omega) hot k4 k5 (by omega)
  exact ⟨r1, r2, r3, r4⟩

/-- **C54** What holds: add to the clone (or the original) a new template under a name that no element of the original uses; neither
changes. -/
theorem C54_add_unused_name_partial {th th' th'' : THeap} {S : Nat → Prop} (hS : Family th S) {t c n : Nat} (ht : S t)
    (e : clone n th t = .ok (th', c)) (hp : th' <+: th'') {s : Nat} (hs : th'.length ≤ s) {v : Str}
    (hu : ∀ b o root p, S b → th[b]? = some o → o.root = some root → p ∈ root → ¬ Names p v) {a b : Nat} (ha : a = t ∨ a = c) (hb : b = t ∨ b = c)
    (x : Ext) (m : Nat) (h : Heap) (data : Option Nat) : execute x (addTemplate th'' a v s) m b h data = execute x th m t h data := by
  obtain ⟨k1, org, k2, k3, k4, k5⟩ := clone_cov hS n th id (fun _ => False) t th' c (cov_refl hS) ht (fun _ h => h.elim) e
  have hl := hS.lt ht
  have hot : org t = t := k2 t hl
  have hbl : b < th'.length ∧ org b = t := by
    rcases hb with rfl | rfl
    · exact ⟨by omega, hot⟩
    · exact ⟨k4, k5⟩
  have hat : ∀ b, b < th'.length → th''[b]? = th'[b]? := fun b hb => by
    rw [List.prefix_iff_getElem?.1 hp b hb, List.getElem?_eq_getElem hb]
  have hadd : ∀ b, b < th'.length → (addTemplate th'' a v s)[b]? = if b = a then th'[a]?.map fun o => { o with subs := some ((o.subs.getD []).set v s) } else th'[b]? := by
    intro b hb
    have hal : a < th'.length := by rcases ha with rfl | rfl <;> omega
    unfold addTemplate
    have h1 : ∀ b, b < th'.length → (upd th'' s fun o => { o with father := some a })[b]? = th'[b]? := fun b hb => by
      rw [upd_get', if_neg (by omega), hat b hb]
    rw [upd_get', h1 a hal, h1 b hb]
  rw [execute_sim x (cov_sim hS k3) m ⟨hbl.1, hbl.2, ht⟩ h data]
  refine (execute_sim x (frame_sim (k3.closed hS) (a := th'.length) (fun w => w ≠ v) (fun b hb => ?_) (fun b hb _ => ?_) (fun b w hb hw => ?_)
    (fun b o' root p w hb _ eo er hp hN hw => ?_) (fun b w hb eb => ?_)) m ⟨rfl, ⟨hbl.1, by rw [hbl.2]; exact ht⟩, by omega⟩ h data).symm
  · rw [hadd b hb.1]
    split
    · rename_i hba; subst hba; cases th'[b]? <;> rfl
    · rfl
  · rw [hadd b hb.1]
    split
    · rename_i hba; subst hba; cases th'[b]? <;> rfl
    · rfl
  · simp only [Registered]
    rw [hadd b hb.1]
    split
    · rename_i hba
      subst hba
      cases th'[b]? with
      | none => rfl
      | some o => simp [AMap.get_set, hw]
    · rfl
  · obtain ⟨o, q1, _, q3, _⟩ := k3.node b o' eo hb.2
    subst hw
    exact hu (org b) o root p hb.2 q1 (by rw [← q3]; exact er) hp hN
  · have := ((k3.closed hS).sub b w _ hb eb).1
    omega

/-- **C54** What holds: a template without sub-templates and father, and its clone, are independent: whatever happens to other templates. -/
theorem C54_without_sub_templates_partial {th th' th'' : THeap} {t c n : Nat} {name : Str} {root : Option (List Param)}
    (ho : th[t]? = some ⟨name, root, none, none⟩) (e : clone n th t = .ok (th', c)) (x : Ext) (m : Nat) (h : Heap) (data : Option Nat) :
    (th''[t]? = th'[t]? → execute x th'' m t h data = execute x th m t h data) ∧
    (th''[c]? = th'[c]? → execute x th'' m c h data = execute x th m t h data) := by
  have hl : t < th.length := (List.getElem?_eq_some_iff.1 ho).1
  cases n with
  | zero => cases e
  | succ n =>
    simp only [clone, ho] at e
    cases e
    have hget : ∀ b, (upd (th ++ [(⟨name, root, none, none⟩ : Tpl)]) th.length fun o' => { o' with father := none })[b]? =
        if b = th.length then some ⟨name, root, none, none⟩ else th[b]? := by
      intro b
      rw [upd_get']
      by_cases hb : b = th.length
      · rw [if_pos hb, if_pos hb]; simp
      · rw [if_neg hb, if_neg hb]
        by_cases hb' : b < th.length
        · rw [List.getElem?_append_left hb']
        · rw [List.getElem?_eq_none (by simp; omega), List.getElem?_eq_none (by omega)]
    have key : ∀ b, th''[b]? = some ⟨name, root, none, none⟩ → execute x th'' m b h data = execute x th m t h data := by
      intro b hb
      refine execute_sim x (R := fun a a' => a = b ∧ a' = t) ⟨?_, ?_⟩ m ⟨rfl, rfl⟩ h data
      · rintro _ _ ⟨rfl, rfl⟩; rw [hb, ho]
      · rintro _ _ o rt p ⟨rfl, rfl⟩ _ _ _ v _
        rw [getTemplate_chain (.top hb rfl), getTemplate_chain (.top ho rfl)]
        simp only [List.findSome?_cons, Registered, hb, ho, Option.bind_some]
        exact .ok .none
    exact ⟨fun e => key t (by rw [e, hget, if_neg (by omega), ho]), fun e => key th.length (by rw [e, hget, if_pos rfl])⟩

/-- The tree and a text without boxes meet the hypotheses. -/
example (x : Ext) (h : Heap) (data : Option Nat) : ∃ th' c, clone 4 treeHeap 0 = .ok (th', c) ∧
    execute x (loadString th' c b!"new {{x}}").1 4 0 h data = execute x treeHeap 4 0 h data := by
  obtain ⟨th', c, e⟩ := C53_clone_returns tree_family (t := 0) (by decide) 4 (by decide +kernel)
  obtain ⟨l, hr, hl⟩ := lex_reads b!"new {{x}}"
  refine ⟨th', c, e, (C54_new_text_partial tree_family (by decide) (o := ⟨[], some [⟨.reference, b!"a"⟩], some [(b!"a", 1), (b!"b", 1)], none⟩)
    (by decide +kernel) rfl e hr (fun p hp => ?_) x 4 h data).2.1⟩
  have : p = ⟨.string, b!"new "⟩ ∨ p = ⟨.variable, b!"x"⟩ := by
    rw [← hl, show lex b!"new {{x}}" = [⟨.string, b!"new "⟩, ⟨.variable, b!"x"⟩] by decide +kernel] at hp
    simpa using hp
  rcases this with rfl | rfl <;> exact ⟨by decide, by decide⟩

/-- The elements of the tree do not use the name `z`. -/
example : ∀ (b : Nat) o root p, b < 3 → treeHeap[b]? = some o → o.root = some root → p ∈ root → ¬ Names p b!"z" := by
  intro b o root p hb eo er hp hN
  have hk : p = ⟨.reference, b!"a"⟩ ∨ p = ⟨.reference, b!"c"⟩ ∨ p.kind = .string ∨ p.kind = .variable := by
    have e : treeHeap = [⟨[], some [⟨.reference, b!"a"⟩], some [(b!"a", 1), (b!"b", 1)], none⟩,
        ⟨b!"a|b", some [⟨.string, b!"<"⟩, ⟨.reference, b!"c"⟩, ⟨.string, b!">"⟩], some [(b!"c", 2)], some 0⟩, ⟨b!"c", some [⟨.variable, b!"x"⟩], none, some 1⟩] := by
      decide +kernel
    rw [e] at eo
    match b, hb with
    | 0, _ => cases eo; cases er; simp at hp; exact Or.inl hp
    | 1, _ => cases eo; cases er; simp at hp; rcases hp with rfl | rfl | rfl <;> simp
    | 2, _ => cases eo; cases er; simp at hp; subst hp; simp
  generalize hz : (b!"z" : Str) = z at hN
  rcases hk with rfl | rfl | hk | hk
  · cases hN with
    | reference e _ => rw [show parts b!"a" = [b!"a"] by decide] at e; cases e; cases hz
    | referenceValue e => rw [show parts b!"a" = [b!"a"] by decide] at e; cases e
  · cases hN with
    | reference e _ => rw [show parts b!"c" = [b!"c"] by decide] at e; cases e; cases hz
    | referenceValue e => rw [show parts b!"c" = [b!"c"] by decide] at e; cases e
  · cases hN <;> cases hk
  · cases hN <;> cases hk

/-! ## C58 -/

/-- **C58** Not true of the template the text is loaded into: the boxes that are complete before the error are registered. -/
theorem C58_failed_load_changes_template : ∃ th th', newFromString [] b!"&&a&&[[a]]old[[]]" = (th, some 0) ∧ loadString th 0 b!"[[a]]new[[]][[b]]" = (th', true) ∧
    ∀ (x : Ext) (h : Heap), execute x th 2 0 h none = .ok (h, b!"old") ∧ execute x th' 2 0 h none = .ok (h, b!"new") := by
  refine ⟨_, _, rfl, rfl, fun x h => ⟨rfl, rfl⟩⟩

/-- **C58** What holds: a load that fails changes no other template, and of the template itself only the sub-templates: name, father and
root stay. -/
theorem C58_failed_load_keeps_root_partial {th th' : THeap} {t : Nat} {o : Tpl} (ht : th[t]? = some o) {s : Str} (e : loadString th t s = (th', true)) :
    (∀ b, b < th.length → b ≠ t → th'[b]? = th[b]?) ∧ ∃ m, th'[t]? = some { o with subs := m } := by
  have := load_frame ht s
  rw [e] at this
  obtain ⟨q1, m, r, q2, q3⟩ := this
  refine ⟨q1, m, ?_⟩
  rw [q3 rfl] at q2
  exact q2

/-- **C58** What a load changes when it fails, exactly: the text is balanced up to some point (`BrokenAfter`); the boxes that stand directly in the
document up to that point are sub-templates of the template, before those it had; nothing else changes, neither its own text nor another template. -/
theorem C58_failed_load_adds_complete_boxes {th th' : THeap} {t : Nat} {o : Tpl} (ht : th[t]? = some o) {s : Str} (e : loadString th t s = (th', true)) :
    ∃ d l m, BrokenAfter s d ∧ (∀ b, b < th.length → b ≠ t → th'[b]? = th[b]?) ∧ th'[t]? = some { o with subs := m } ∧ BoxesAt th' t d l ∧
      ∀ v, (m.getD []).get v = (lastNamed l v).or ((o.subs.getD []).get v) := by
  obtain ⟨d, hd⟩ := failed_broken e
  obtain ⟨th2, l, m, e2, _, h1, h2, h3, h4⟩ := load_broken ht hd
  rw [e] at e2
  cases e2
  exact ⟨d, l, m, hd, h1, h2, h4, h3⟩

/-- **C58** Loading fails exactly for the texts that are broken after some document. -/
theorem C58_load_fails_exactly {th : THeap} {t : Nat} {o : Tpl} (ht : th[t]? = some o) (s : Str) :
    (loadString th t s).2 = true ↔ ∃ d, BrokenAfter s d := by
  constructor
  · intro h
    exact failed_broken (th := th) (t := t) (th' := (loadString th t s).1) (by rw [← h])
  · rintro ⟨d, hd⟩
    obtain ⟨th2, l, m, e, _⟩ := load_broken ht hd
    rw [e]

/-- **C58** If no box ends before the error, the template keeps its text and all its sub-templates. -/
theorem C58_failed_load_without_box_changes_nothing {th : THeap} {t : Nat} {o : Tpl} (ht : th[t]? = some o) {s : Str} {d : Doc} (hd : BrokenAfter s d)
    (hb : d.tokens = d.own) : ∃ th' m, loadString th t s = (th', true) ∧ th'[t]? = some { o with subs := m } ∧
      ∀ v, (m.getD []).get v = (o.subs.getD []).get v := by
  obtain ⟨th2, l, m, e, _, _, h2, h3, h4⟩ := load_broken ht hd
  refine ⟨th2, m, e, h2, fun v => ?_⟩
  have hl : l = [] := by
    clear h2 h3 e hd
    induction d generalizing l with
    | nil => cases h4; rfl
    | elem p r ih =>
      cases h4 with
      | elem h => exact ih (by simpa [Doc.tokens, Doc.own] using hb) _ h
    | box n b r _ _ =>
      have hlen : ∀ d : Doc, d.own.length ≤ d.tokens.length := by
        intro d
        induction d with
        | nil => exact Nat.le_refl _
        | elem p r ih => simp [Doc.tokens, Doc.own, ih]
        | box n b r _ ih => simp [Doc.tokens, Doc.own]; omega
      have := congrArg List.length hb
      have := hlen r
      simp [Doc.tokens, Doc.own] at *
      omega
  rw [h3, hl]
  simp [lastNamed]

/-- The text of `C58_failed_load_changes_template`, and one whose box ends twice. -/
example : BrokenAfter b!"[[a]]new[[]][[b]]" (.box b!"a" (.elem ⟨.string, b!"new"⟩ .nil) .nil) ∧ BrokenAfter b!"x[[]]" (.elem ⟨.string, b!"x"⟩ .nil) := by
  constructor
  · obtain ⟨l, hr, el⟩ := lex_reads b!"[[a]]new[[]][[b]]"
    refine ⟨by simp [Doc.Plain], l, [⟨.start, b!"b"⟩], hr, ?_, Or.inr ⟨_, [], rfl, ?_⟩⟩
    · rw [← el]; decide +kernel
    · exact (neverEnds_iff []).2 (by simp [depth])
  · obtain ⟨l, hr, el⟩ := lex_reads b!"x[[]]"
    refine ⟨by simp [Doc.Plain], l, [⟨.stop, []⟩], hr, ?_, Or.inl ⟨[], rfl⟩⟩
    rw [← el]; decide +kernel

/-- **C58** `NewXTemplateFromString`, also when it fails, changes no template that was there. -/
theorem C58_failed_new_changes_nothing (th : THeap) (s : Str) : th <+: (newFromString th s).1 := by
  rw [List.prefix_iff_getElem?]
  intro i hi
  have hf := (load_frame (th := (newTpl th).1) (t := (newTpl th).2) (o := ⟨[], none, none, none⟩) (by simp [newTpl]) s).1 i (by simp [newTpl]; omega) (by simp [newTpl]; omega)
  have hn : (newTpl th).1[i]? = th[i]? := by simp only [newTpl]; rw [List.getElem?_append_left hi]
  rw [hn, List.getElem?_eq_getElem hi] at hf
  simp only [newFromString]
  generalize loadString (newTpl th).1 (newTpl th).2 s = r at hf
  obtain ⟨th1, e⟩ := r
  cases e <;> exact hf

end Xcore.Template
