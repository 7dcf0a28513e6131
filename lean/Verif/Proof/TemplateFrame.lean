import Verif.Proof.TemplateClone

/-!
# Changes that a template does not see
-/

namespace Xcore.Template

open Xcore.Dataset (Ext Heap)

/-- Templates that look the same execute the same. -/
theorem execute_sim (x : Ext) {th th' : THeap} {R : Nat → Nat → Prop} (hs : Sim th th' R) (n : Nat) {t t' : Nat} (h : R t t') (hp : Heap) (data : Option Nat) :
    execute x th n t hp data = execute x th' n t' hp data := by
  unfold execute
  cases data with
  | none => simp only [injector_congr x hs none n h]
  | some a =>
    simp only
    congr 1
    funext l
    rw [injector_congr x hs (langOf hp l) n h]

/-- A set of templates with their fathers and sub-templates. -/
structure Closed (th : THeap) (S : Nat → Prop) : Prop where
  father : ∀ a o f, S a → th[a]? = some o → o.father = some f → S f
  sub : ∀ a v s, S a → Registered th a v = some s → S s
  chain : ∀ a, S a → ∃ l, Chain th a l

theorem Family.closed {th : THeap} {S : Nat → Prop} (h : Family th S) : Closed th S :=
  ⟨fun a o f hs e hf => by
    obtain ⟨o', e', _, h3⟩ := h.obj a hs
    rw [e] at e'
    cases e'
    exact h3 f hf, fun a v s hs e => (h.sub a v s hs e).1, h.chain⟩

theorem Closed.mem {th : THeap} {S : Nat → Prop} (h : Closed th S) {a : Nat} {l : List Nat} (hl : Chain th a l) : S a → ∀ b ∈ l, S b := by
  induction hl with
  | top e f => intro hs b hb; simp at hb; subst hb; exact hs
  | sub e f _ ih =>
    intro hs b hb
    rcases List.mem_cons.1 hb with rfl | hb
    · exact hs
    · exact ih (h.father _ _ _ hs e f) b hb

/-- After cloning, copies and originals are closed. -/
theorem Cov.closed {th : THeap} {S : Nat → Prop} (hS : Family th S) {th' : THeap} {org : Nat → Nat} (hc : Cov th S th' org fun _ => False) :
    Closed th' fun b => b < th'.length ∧ S (org b) := by
  refine ⟨fun a o' f ⟨_, hs⟩ e hf => ?_, fun a v s ⟨hl, hs⟩ e => ?_, fun a ⟨hl, hs⟩ => ?_⟩
  · obtain ⟨o, q1, _, _, q4⟩ := hc.node a o' e hs
    obtain ⟨_, r2, r3, _⟩ := q4 id
    obtain ⟨o2, e2, _, h3⟩ := hS.obj _ hs
    rw [q1] at e2
    cases e2
    exact ⟨r3 f hf, h3 _ (by rw [← r2, hf]; rfl)⟩
  · obtain ⟨o', eb⟩ : ∃ o', th'[a]? = some o' := ⟨_, List.getElem?_eq_getElem hl⟩
    obtain ⟨o, q1, _, _, q4⟩ := hc.node a o' eb hs
    obtain ⟨r1, _, _, r4⟩ := q4 id
    simp only [Registered, eb, Option.bind_some] at e
    refine ⟨r4 v s e, (hS.sub (org a) v (org s) hs ?_).1⟩
    simp only [Registered, q1, Option.bind_some]
    rw [← r1 v, e]
    rfl
  · obtain ⟨l, h⟩ := hS.chain _ hs
    obtain ⟨l', h', _⟩ := cov_chain hS hc h a hl rfl hs
    exact ⟨l', h'⟩

/-- The copies and the original of a template without a father are not sub-templates. -/
theorem Cov.not_registered {th : THeap} {S : Nat → Prop} (hS : Family th S) {th' : THeap} {org : Nat → Nat} (hc : Cov th S th' org fun _ => False) {a b : Nat}
    {v : Str} {o : Tpl} (htop : th[org b]? = some o) (hf : o.father = none) (hl : a < th'.length) (hs : S (org a)) : Registered th' a v ≠ some b := by
  intro e
  obtain ⟨o', eb⟩ : ∃ o', th'[a]? = some o' := ⟨_, List.getElem?_eq_getElem hl⟩
  obtain ⟨o2, q1, _, _, q4⟩ := hc.node a o' eb hs
  obtain ⟨r1, _, _, r4⟩ := q4 id
  simp only [Registered, eb, Option.bind_some] at e
  have := (hS.sub (org a) v (org b) hs (by simp only [Registered, q1, Option.bind_some]; rw [← r1 v, e]; rfl)).2
  rw [htop] at this
  rw [Option.bind_some, hf] at this
  cases this

/-- The chain of fathers is the same if fathers are. -/
theorem chain_congr {th th' : THeap} {a : Nat} {l : List Nat} (h : Chain th a l) : (∀ b ∈ l, th'[b]?.map Tpl.father = th[b]?.map Tpl.father) → Chain th' a l := by
  induction h with
  | @top a o e f =>
    intro hf
    have := hf a (by simp)
    rw [e] at this
    cases e' : th'[a]? with
    | none => rw [e'] at this; cases this
    | some o' => rw [e'] at this; simp at this; exact .top e' (by rw [this, f])
  | @sub a g o l e f _ ih =>
    intro hf
    have := hf a (by simp)
    rw [e] at this
    cases e' : th'[a]? with
    | none => rw [e'] at this; cases this
    | some o' => rw [e'] at this; simp at this; exact .sub e' (by rw [this, f]) (ih fun b hb => hf b (by simp [hb]))

/-- Two memories that differ in a closed set only in the root of one template and in names that no element of the set uses: they look the same from
the rest of the set. -/
theorem frame_sim {th th' : THeap} {S : Nat → Prop} (hS : Closed th S) {a : Nat} (used : Str → Prop)
    (hf : ∀ b, S b → th'[b]?.map Tpl.father = th[b]?.map Tpl.father)
    (hr : ∀ b, S b → b ≠ a → th'[b]?.map Tpl.root = th[b]?.map Tpl.root)
    (hv : ∀ b v, S b → used v → Registered th' b v = Registered th b v)
    (hn : ∀ b o root p v, S b → b ≠ a → th[b]? = some o → o.root = some root → p ∈ root → Names p v → used v)
    (ha : ∀ b v, S b → Registered th b v ≠ some a) : Sim th th' fun b b' => b' = b ∧ S b ∧ b ≠ a := by
  constructor
  · intro b' b ⟨he, hs, hne⟩
    subst he
    exact (hr b hs hne).symm
  · intro b' b o root p ⟨he, hs, hne⟩ e er hp v hN
    subst he
    obtain ⟨l, hl⟩ := hS.chain b hs
    have hm := hS.mem hl hs
    rw [getTemplate_chain hl, getTemplate_chain (chain_congr hl fun c hc => hf c (hm c hc))]
    refine .ok ?_
    have hu := hn b o root p v hs hne e er hp hN
    clear hl
    induction l with
    | nil => exact .none
    | cons c l ih =>
      simp only [List.findSome?_cons]
      have hc := hm c (by simp)
      rw [hv c v hc hu]
      cases e2 : Registered th c v with
      | none => exact ih fun d hd => hm d (by simp [hd])
      | some s => exact .some ⟨rfl, hS.sub c v s hc e2, fun h => ha c v hc (by rw [e2, h])⟩

/-- The templates of a compiled text are a family. -/
theorem compiled_family {th : THeap} (hn : SubsNodup th) : Family th fun a => ∃ sc, InScope th a sc := by
  refine ⟨fun a ⟨sc, h⟩ => ?_, fun a v s ⟨sc, h⟩ e => ?_, fun a ⟨sc, h⟩ => h.chain⟩
  · cases h with
    | @top _ _ o e f c => exact ⟨o, e, fun m hm => hn a o m e hm, fun f' hf => by rw [f] at hf; cases hf⟩
    | @sub a' _ d b up o h' e f c => exact ⟨o, e, fun m hm => hn a o m e hm, fun f' hf => by rw [f] at hf; cases hf; exact ⟨_, h'⟩⟩
  · obtain ⟨d, sc', rfl⟩ : ∃ d sc', sc = d :: sc' := by cases h <;> exact ⟨_, _, rfl⟩
    have := Registered_compiled h.compiled v
    cases ed : d.find v with
    | none => rw [ed] at this; rw [this] at e; cases e
    | some b =>
      rw [ed] at this
      obtain ⟨c, o, q1, q2, q3, q4⟩ := this
      rw [e] at q1
      cases q1
      exact ⟨⟨_, .sub h q2 q3 q4⟩, by rw [q2]; exact q3⟩

end Xcore.Template
