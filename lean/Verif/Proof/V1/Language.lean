import Verif.Proof.LanguageRun
import Verif.Spec.V1.Language

/-!
# Language tables of version 1 and of version 2 agree
-/

namespace Xcore.V1.Language

/-- What version 1 sees of the decoder of version 2. -/
theorem ofV2_entries (d : Xcore.Language.XLang) : (XLang.ofV2 d).entries = d.entries.map fun e => (⟨e.id, e.entry⟩ : XEntry) := rfl

theorem put_agrees {l : Lang} {l2 : Xcore.Language.Lang} (h : Agrees l l2) (k v : Str) (m : AMap Str) :
    ∃ l', put l k v = some l' ∧ Agrees l' { l2 with entries := l2.entries.set k v, status := m } := by
  obtain ⟨h1, h2, h3⟩ := h
  refine ⟨{ l with entries := some (l2.entries.set k v) }, ?_, h1, h2, rfl⟩
  unfold put
  rw [h3]

theorem loadLine_agrees {l : Lang} {l2 : Xcore.Language.Lang} (h : Agrees l l2) (line : Str) :
    ∃ l', loadLine l line = some l' ∧ Agrees l' (Xcore.Language.loadLine l2 line) := by
  unfold loadLine Xcore.Language.loadLine
  cases indexByte 61 line with
  | none => exact ⟨l, rfl, h⟩
  | some i =>
    dsimp only
    split
    · exact ⟨l, rfl, h⟩
    · split
      · exact ⟨l, rfl, h⟩
      · exact put_agrees h _ _ l2.status

theorem foldlM_agrees {α β : Type} (f : Lang → α → Option Lang) (g : Xcore.Language.Lang → β → Xcore.Language.Lang) (u : α → β)
    (hs : ∀ l l2 a, Agrees l l2 → ∃ l', f l a = some l' ∧ Agrees l' (g l2 (u a))) (as : List α) (l : Lang) (l2 : Xcore.Language.Lang)
    (h : Agrees l l2) : ∃ l', as.foldlM f l = some l' ∧ Agrees l' ((as.map u).foldl g l2) := by
  induction as generalizing l l2 with
  | nil => exact ⟨l, rfl, h⟩
  | cons a as ih =>
    obtain ⟨l', e, h'⟩ := hs l l2 a h
    obtain ⟨l'', e', h''⟩ := ih l' _ h'
    refine ⟨l'', ?_, h''⟩
    rw [List.foldlM_cons, e]
    exact e'

theorem loadString_agrees {l : Lang} {l2 : Xcore.Language.Lang} (h : Agrees l l2) (data : Str) :
    ∃ l', loadString l data = some (l', (Xcore.Language.loadString l2 data).2) ∧ Agrees l' (Xcore.Language.loadString l2 data).1 := by
  obtain ⟨l', e, h'⟩ := foldlM_agrees loadLine Xcore.Language.loadLine id (fun l l2 a h => loadLine_agrees h a)
    (Xcore.Language.scan [] data).1 l l2 h
  rw [List.map_id] at h'
  refine ⟨l', ?_, h'⟩
  unfold loadString Xcore.Language.loadString
  rw [e]
  rfl

theorem foldlM_map_left {α β γ : Type} (f : γ → β → Option γ) (u : α → β) (as : List α) (c : γ) :
    (as.map u).foldlM f c = as.foldlM (fun c a => f c (u a)) c := by
  induction as generalizing c with
  | nil => rfl
  | cons a as ih =>
    simp only [List.map_cons, List.foldlM_cons]
    cases f c (u a) with
    | none => rfl
    | some c' => exact ih c'

theorem loadXML_agrees (um : Str → Option Xcore.Language.XLang) (pt : Str → Str) {l : Lang} {l2 : Xcore.Language.Lang} (h : Agrees l l2)
    (data : Str) :
    ∃ l', loadXML (fun s => (um s).map XLang.ofV2) pt l data = some (l', (Xcore.Language.loadXML um pt l2 data).2) ∧
      Agrees l' (Xcore.Language.loadXML um pt l2 data).1 := by
  unfold loadXML Xcore.Language.loadXML
  dsimp only
  cases um data with
  | none => exact ⟨l, rfl, h⟩
  | some d =>
    obtain ⟨l', e, h'⟩ := foldlM_agrees (fun l (e : Xcore.Language.XEntry) => put l e.id e.entry)
      (fun l (e : Xcore.Language.XEntry) => { l with entries := l.entries.set e.id e.entry, status := l.status.set e.id e.status }) id
      (fun l l2 a h => put_agrees h a.id a.entry _) d.entries
      { l with name := d.name, tag := pt d.language } { l2 with name := d.name, tag := pt d.language } ⟨rfl, rfl, h.2.2⟩
    rw [List.map_id] at h'
    refine ⟨l', ?_, h'⟩
    simp only [Option.map_some, ofV2_entries, foldlM_map_left]
    show Option.map _ (List.foldlM _ { l with name := d.name, tag := pt d.language } d.entries) = _
    rw [e]
    rfl

theorem step_agrees (um : Str → Option Xcore.Language.XLang) (pt : Str → Str) {l : Lang} {l2 : Xcore.Language.Lang} (h : Agrees l l2)
    (op : Op) :
    ∃ l', step (fun s => (um s).map XLang.ofV2) pt l op = some l' ∧ Agrees l' (Xcore.Language.step um pt l2 op.up) := by
  cases op with
  | set e v => exact put_agrees h e v l2.status
  | del e => exact ⟨_, rfl, h.1, h.2.1, by simp [del, h.2.2, Xcore.Language.step, Xcore.Language.del, Op.up]⟩
  | load data =>
    obtain ⟨l', e, h'⟩ := loadString_agrees h data
    exact ⟨l', by simp [step, e], h'⟩
  | loadXML data =>
    obtain ⟨l', e, h'⟩ := loadXML_agrees um pt h data
    exact ⟨l', by simp [step, e], h'⟩
  | setName n => exact ⟨_, rfl, rfl, h.2.1, h.2.2⟩
  | setLanguage t => exact ⟨_, rfl, h.1, rfl, h.2.2⟩

theorem run_agrees (um : Str → Option Xcore.Language.XLang) (pt : Str → Str) {l : Lang} {l2 : Xcore.Language.Lang} (h : Agrees l l2)
    (ops : List Op) :
    ∃ l', run (fun s => (um s).map XLang.ofV2) pt l ops = some l' ∧ Agrees l' (Xcore.Language.run um pt l2 (ops.map Op.up)) :=
  foldlM_agrees _ _ Op.up (fun _ _ a h => step_agrees um pt h a) ops l l2 h

theorem reads_agree {l : Lang} {l2 : Xcore.Language.Lang} (h : Agrees l l2) :
    getName l = l2.name ∧ getLanguage l = l2.tag ∧ (∀ e, get l e = Xcore.Language.get l2 e) ∧ toString l = Xcore.Language.toString l2 ∧
    ∀ q, goString q l = Xcore.Language.goString q l2 := by
  obtain ⟨h1, h2, h3⟩ := h
  refine ⟨h1, h2, fun e => ?_, ?_, fun q => ?_⟩
  · unfold get Xcore.Language.get; rw [h3]; rfl
  · unfold toString Xcore.Language.toString; rw [h3]; rfl
  · unfold goString Xcore.Language.goString; rw [h3]; rfl

/-! ## Decoders of version 1 as decoders of version 2 -/

/-- A document with empty statuses. -/
def XLang.up (d : XLang) : Xcore.Language.XLang := ⟨d.name, d.language, d.entries.map fun e => ⟨e.id, e.entry, []⟩⟩

theorem ofV2_up (d : XLang) : XLang.ofV2 d.up = d := by
  obtain ⟨n, t, es⟩ := d
  simp only [XLang.ofV2, XLang.up, List.map_map, XLang.mk.injEq, true_and]
  induction es with
  | nil => rfl
  | cons e es ih => rw [List.map_cons, ih]; rfl

theorem decoder_up (um : Str → Option XLang) : (fun s => ((um s).map XLang.up).map XLang.ofV2) = um := by
  funext s
  cases um s with
  | none => rfl
  | some d => simp [ofV2_up]

theorem lastEntry_up {d : XLang} {k v : Str} : (∃ st, Xcore.Language.LastEntry d.up k v st) ↔ LastEntry d k v := by
  constructor
  · rintro ⟨st, pre, post, h1, h2⟩
    simp only [XLang.up] at h1
    obtain ⟨a, c, e, h3, h4⟩ := List.map_eq_append_iff.1 h1
    obtain ⟨a', b', e', h5, h6⟩ := List.map_eq_append_iff.1 h3
    cases b' with
    | nil => simp at h6
    | cons x xs =>
      simp only [List.map_cons, List.cons.injEq, List.map_eq_nil_iff, Xcore.Language.XEntry.mk.injEq] at h6
      obtain ⟨⟨q1, q2, _⟩, rfl⟩ := h6
      refine ⟨a', c, ?_, ?_⟩
      · rw [e, e', ← q1, ← q2]
      · intro y hy
        exact h2 ⟨y.id, y.entry, []⟩ (by rw [← h4]; exact List.mem_map.2 ⟨y, hy, rfl⟩)
  · rintro ⟨pre, post, h1, h2⟩
    refine ⟨[], pre.map fun e => ⟨e.id, e.entry, []⟩, post.map fun e => ⟨e.id, e.entry, []⟩, ?_, ?_⟩
    · simp [XLang.up, h1]
    · intro y hy
      obtain ⟨x, hx, rfl⟩ := List.mem_map.1 hy
      exact h2 x hx

theorem writes_up {um : Str → Option XLang} {op : Op} {e v : Str} :
    Xcore.Language.Writes (fun s => (um s).map XLang.up) op.up e v ↔ Writes um op e v := by
  constructor
  · rintro (h | ⟨data, h, h'⟩ | ⟨data, d, st, h, h1, h2⟩)
    · cases op with
      | set a b => cases h; exact Or.inl rfl
      | _ => cases h
    · cases op with
      | load a => cases h; exact Or.inr (Or.inl ⟨_, rfl, h'⟩)
      | _ => cases h
    · cases op with
      | loadXML a =>
        cases h
        obtain ⟨d', q1, rfl⟩ := Option.map_eq_some_iff.1 h1
        exact Or.inr (Or.inr ⟨_, d', rfl, q1, lastEntry_up.1 ⟨st, h2⟩⟩)
      | _ => cases h
  · rintro (rfl | ⟨data, rfl, h'⟩ | ⟨data, d, rfl, h1, h2⟩)
    · exact Or.inl rfl
    · exact Or.inr (Or.inl ⟨_, rfl, h'⟩)
    · obtain ⟨st, h3⟩ := lastEntry_up.2 h2
      exact Or.inr (Or.inr ⟨_, d.up, st, rfl, by simp [h1], h3⟩)

theorem up_del {op : Op} {e : Str} : op.up = .del e ↔ op = .del e := by cases op <;> simp [Op.up]

theorem lastWritten_up {um : Str → Option XLang} {h : List Op} {e v : Str} (hw : LastWritten um h e v) :
    Xcore.Language.LastWritten (Xcore.Language.Writes fun s => (um s).map XLang.up) (h.map Op.up) e v := by
  obtain ⟨pre, op, post, rfl, h1, h2⟩ := hw
  refine ⟨pre.map Op.up, op.up, post.map Op.up, by simp, writes_up.2 h1, ?_⟩
  intro o ho
  obtain ⟨o', ho', rfl⟩ := List.mem_map.1 ho
  exact ⟨fun q => (h2 o' ho').1 (up_del.1 q), fun v' q => (h2 o' ho').2 v' (writes_up.1 q)⟩

theorem nothingWritten_up {um : Str → Option XLang} {h : List Op} {e : Str} (hw : NothingWritten um h e) :
    Xcore.Language.NothingWritten (Xcore.Language.Writes fun s => (um s).map XLang.up) (h.map Op.up) e := by
  obtain ⟨pre, post, rfl, h1, h2⟩ := hw
  refine ⟨pre.map Op.up, post.map Op.up, by simp, ?_, ?_⟩
  · rcases h1 with rfl | h1
    · exact Or.inl rfl
    · right; rw [List.getLast?_map, h1]; rfl
  · intro o ho v q
    obtain ⟨o', ho', rfl⟩ := List.mem_map.1 ho
    exact h2 o' ho' v (writes_up.1 q)

/-! ## Tables without a map -/

open Xcore.Language (Assigns LastAssigns loadable dropCR scan_lines short)

theorem loadLine_nil (n t line : Str) :
    loadLine ⟨n, t, none⟩ line = if (Xcore.Language.loadLine (Xcore.Language.new n t) line).entries = [] then some ⟨n, t, none⟩ else none := by
  unfold loadLine Xcore.Language.loadLine
  cases indexByte 61 line with
  | none => rfl
  | some i =>
    dsimp only
    split
    · rfl
    · split
      · rfl
      · rfl

theorem loadLine_none (n t line : Str) :
    ((∃ k v, Assigns line k v) → loadLine ⟨n, t, none⟩ (dropCR line) = none) ∧
    ((∀ k v, ¬ Assigns line k v) → loadLine ⟨n, t, none⟩ (dropCR line) = some ⟨n, t, none⟩) := by
  rw [loadLine_nil, Xcore.Language.loadLine_dropCR]
  constructor
  · rintro ⟨k, v, h⟩
    rw [Xcore.Language.loadLine_assigns h]
    rfl
  · intro h
    rw [Xcore.Language.loadLine_ignored h]
    rfl

theorem foldlM_none (n t : Str) (ls : List Str) :
    (ls.map dropCR).foldlM loadLine ⟨n, t, none⟩ = none ↔ ∃ line ∈ ls, ∃ k v, Assigns line k v := by
  induction ls with
  | nil => simp
  | cons a ls ih =>
    simp only [List.map_cons, List.foldlM_cons]
    rcases Xcore.Language.loadLine_cases a with h | h
    · rw [(loadLine_none n t a).1 h]
      exact ⟨fun _ => ⟨a, by simp, h⟩, fun _ => rfl⟩
    · rw [(loadLine_none n t a).2 h]
      refine Iff.trans ih ⟨?_, ?_⟩
      · rintro ⟨x, hx, q⟩; exact ⟨x, by simp [hx], q⟩
      · rintro ⟨x, hx, k, v, q⟩
        rcases List.mem_cons.1 hx with rfl | hx
        · exact absurd q (h k v)
        · exact ⟨x, hx, k, v, q⟩

theorem loadString_nil (n t s : Str) : loadString ⟨n, t, none⟩ s = none ↔ ∃ k v, LastAssigns (loadable s) k v := by
  unfold loadString
  rw [scan_lines]
  simp only [Option.map_eq_none_iff]
  refine Iff.trans (foldlM_none n t (loadable s)) ⟨?_, ?_⟩
  · rintro ⟨line, h1, k, v, h2⟩
    rcases Xcore.Language.assigned_cases (loadable s) k with ⟨v', q⟩ | q
    · exact ⟨k, v', q⟩
    · exact absurd h2 (q line h1 v)
  · rintro ⟨k, v, pre, line, post, h1, h2, _⟩
    exact ⟨line, by rw [h1]; simp, k, v, h2⟩

end Xcore.V1.Language
