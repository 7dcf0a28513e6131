import Verif.Spec.Zero
import Verif.Proof.Language
import Verif.Proof.TSMethods

/-! # Objects made without their constructor -/

namespace Xcore.Zero

/-! ## XLanguage -/

theorem loadLine_entry (l : Language.Lang) (line : Str) :
    Language.loadLine l line = match lineEntry line with
      | none => l
      | some (k, v) => { l with entries := l.entries.set k v } := by
  unfold Language.loadLine lineEntry
  cases indexByte 61 line with
  | none => rfl
  | some p =>
    simp only
    by_cases h1 : line.length = 0 ∨ line.head? = some 35 ∨ line.head? = some 59
    · simp only [h1, if_true]
    · simp only [h1, if_false]
      by_cases h2 : (trimSpace (List.take p line)).length = 0
      · simp only [h2, if_true]
      · simp only [h2, if_false]

theorem set_ne_nil {V : Type} (m : AMap V) (k : Str) (v : V) : AMap.set m k v ≠ [] := by
  cases m with
  | nil => simp [AMap.set]
  | cons p m =>
    obtain ⟨k', v'⟩ := p
    simp only [AMap.set]
    split <;> simp

theorem foldl_entries_nil : ∀ (lines : List Str) (l : Language.Lang),
    (lines.foldl Language.loadLine l).entries = [] ↔ l.entries = [] ∧ ∀ line ∈ lines, lineEntry line = none
  | [], l => by simp
  | line :: lines, l => by
    rw [List.foldl_cons, foldl_entries_nil lines, loadLine_entry]
    cases h : lineEntry line with
    | none => simp [h]
    | some p =>
      obtain ⟨k, v⟩ := p
      simp [h, set_ne_nil]

theorem foldl_names : ∀ (lines : List Str) (l : Language.Lang),
    (lines.foldl Language.loadLine l).name = l.name ∧ (lines.foldl Language.loadLine l).tag = l.tag ∧
      (lines.foldl Language.loadLine l).status = l.status
  | [], l => by simp
  | line :: lines, l => by
    rw [List.foldl_cons]
    obtain ⟨h1, h2, h3⟩ := foldl_names lines (Language.loadLine l line)
    rw [h1, h2, h3, loadLine_entry]
    cases lineEntry line with
    | none => simp
    | some p => simp

theorem hasEntries_iff (data : Str) : HasEntries data ↔ ¬ ∀ line ∈ (Language.scan [] data).1, lineEntry line = none := by
  unfold HasEntries Language.loadString
  simp only [ne_eq, foldl_entries_nil]
  simp [Language.new]

theorem loadLoop_made : ∀ (lines : List Str) (l : Language.Lang),
    loadLoop lines (madeLang l) = (madeLang (lines.foldl Language.loadLine l), .returns ())
  | [], l => rfl
  | line :: lines, l => by
    rw [List.foldl_cons, loadLine_entry, loadLoop]
    cases lineEntry line with
    | none => exact loadLoop_made lines l
    | some p =>
      obtain ⟨k, v⟩ := p
      simp only [madeLang, GoMap.set]
      exact loadLoop_made lines { l with entries := l.entries.set k v }

theorem loadLoop_nil : ∀ (lines : List Str) (l : Lang), l.entries = none →
    loadLoop lines l = if ∀ line ∈ lines, lineEntry line = none then (l, .returns ())
      else if l.held then (l, .blocks) else ({ l with held := true }, .panics)
  | [], l, _ => by simp [loadLoop]
  | line :: lines, l, hl => by
    rw [loadLoop]
    cases h : lineEntry line with
    | none => simp [h, loadLoop_nil lines l hl]
    | some p =>
      obtain ⟨k, v⟩ := p
      simp [h, hl, GoMap.set]

theorem xmlLoop_made : ∀ (es : List Language.XEntry) (l : Language.Lang),
    xmlLoop es (madeLang l) =
      (madeLang (es.foldl (fun l e => { l with entries := l.entries.set e.id e.entry, status := l.status.set e.id e.status }) l), true)
  | [], _ => rfl
  | e :: es, l => by
    rw [List.foldl_cons, xmlLoop]
    simp only [madeLang, GoMap.set]
    exact xmlLoop_made es { l with entries := l.entries.set e.id e.entry, status := l.status.set e.id e.status }

theorem xmlLoop_nil (es : List Language.XEntry) (l : Lang) (hl : l.entries = none) : xmlLoop es l = (l, es.isEmpty) := by
  cases es with
  | nil => rfl
  | cons e es => simp [xmlLoop, hl, GoMap.set]

theorem foldl_xml_names : ∀ (es : List Language.XEntry) (l : Language.Lang),
    (es.foldl (fun l e => { l with entries := l.entries.set e.id e.entry, status := l.status.set e.id e.status }) l).name = l.name ∧
    (es.foldl (fun l e => { l with entries := l.entries.set e.id e.entry, status := l.status.set e.id e.status }) l).tag = l.tag
  | [], l => by simp
  | e :: es, l => by
    rw [List.foldl_cons]
    obtain ⟨h1, h2⟩ := foldl_xml_names es { l with entries := l.entries.set e.id e.entry, status := l.status.set e.id e.status }
    exact ⟨h1, h2⟩

section
variable (u : Str → Option Language.XLang) (p : Str → Str)

theorem getD_match (o : Option Str) : (match o with | some v => v | none => []) = o.getD [] := by cases o <;> rfl

theorem lstep_made (l : Language.Lang) (op : LOp) : lstep u p (madeLang l) op = (madeLang (after u p l op), .returns (answer u p l op)) := by
  cases op with
  | get e =>
    simp only [lstep, Lang.locked, madeLang, GoMap.get, after, answer, Language.get]
    cases AMap.get l.entries e <;> simp
  | getStatus e =>
    simp only [lstep, Lang.locked, madeLang, GoMap.get, after, answer, Language.getStatus]
    cases AMap.get l.status e <;> simp
  | getXML =>
    simp only [lstep, Lang.locked, madeLang, GoMap.pairs, after, answer, Language.getXML]
    rfl
  | load data =>
    simp only [lstep, loadLoop_made, after, answer, Language.loadString]
  | loadXML data =>
    simp only [lstep, after, answer, Language.loadXML]
    cases u data with
    | none => rfl
    | some doc =>
      have := xmlLoop_made doc.entries { l with name := doc.name, tag := p doc.language }
      simp only [madeLang] at this
      simp only [madeLang, Lang.locked, this]
      simp
  | _ => simp [lstep, Lang.locked, madeLang, GoMap.set, GoMap.del, GoMap.pairs, after, answer, Language.set, Language.setStatus, Language.del,
      Language.getEntries, Language.toString, Language.setName, Language.setLanguage]

theorem lrun_made : ∀ (h : List LOp) (l : Language.Lang),
    lrun u p (madeLang l) h = (madeLang (h.foldl (after u p) l), (answers u p l h).map .returns)
  | [], _ => rfl
  | op :: h, l => by
    simp only [lrun, lstep_made, lrun_made h, answers, List.map_cons, List.foldl_cons]

/-- An object without maps. -/
def bare (n t : Str) (b : Bool) : Lang := { name := n, tag := t, entries := none, status := none, held := b }

theorem lstep_bare (n t : Str) (b : Bool) (op : LOp) :
    lstep u p (bare n t b) op =
      (bare (after u p (Language.new n t) op).name (after u p (Language.new n t) op).tag (b || isLoad op),
        if b && needsLock u op then .blocks else if writes u op then .panics else .returns (answer u p (Language.new n t) op)) := by
  cases op with
  | load data =>
    have hn := foldl_names (Language.scan [] data).1 (Language.new n t)
    have hi := hasEntries_iff data
    simp only [lstep, after, answer, isLoad, needsLock, writes, Language.loadString, hn]
    rw [loadLoop_nil _ _ rfl]
    by_cases h : HasEntries data
    · have h' := hi.1 h
      cases b <;> simp [h, h', bare, Language.new]
    · have h' := Decidable.not_not.1 (mt hi.2 h)
      rw [if_pos h']
      cases b <;> simp [h, bare, Language.new]
  | loadXML data =>
    cases hu : u data with
    | none => cases b <;> simp [lstep, after, answer, isLoad, needsLock, writes, Language.loadXML, hu, bare, Language.new]
    | some doc =>
      have hx := foldl_xml_names doc.entries { Language.new n t with name := doc.name, tag := p doc.language }
      simp only [lstep, after, answer, isLoad, needsLock, writes, Language.loadXML, hu, hx]
      rw [xmlLoop_nil _ _ rfl]
      cases b <;> cases he : doc.entries <;> simp [bare, Lang.locked]
  | _ => cases b <;> simp [lstep, Lang.locked, bare, isLoad, needsLock, writes, GoMap.set, GoMap.get, GoMap.del, GoMap.pairs, after, answer, Language.set,
      Language.setStatus, Language.del, Language.get, Language.getStatus, Language.new,
      Language.getEntries, Language.getXML, Language.toString, Language.setName, Language.setLanguage]

theorem lrun_bare : ∀ (h : List LOp) (n t : Str) (b : Bool),
    (lrun u p (bare n t b) h).2 = literalAnswers u p n t b h
  | [], _, _, _ => rfl
  | op :: h, n, t, b => by
    simp only [lrun, lstep_bare, lrun_bare h, literalAnswers]

end

/-! ## XCache -/

variable {D : Type}

open Xcore.Cache (Env Op Out Entry)

theorem mClean_made (c : Cache.Cache D) (env : Env) (perc : Int) :
    mClean (madeCache c) env perc = (madeCache (Cache.mClean c env perc).1, (Cache.mClean c env perc).2) := by
  simp only [mClean, Cache.mClean, madeCache, GoMap.pairs]
  cases h : Cache.evictLoop (Cache.cleanNum (Cache.sweep c.expire env c.items).length perc).toNat (Cache.sweep c.expire env c.items) c.pile with
  | mk i o => cases o <;> simp [GoMap.left]

theorem cdel_made (c : Cache.Cache D) (k : Str) : cdel (madeCache c) k = madeCache (Cache.del c k) := rfl

theorem verifyLoop_made (env : Env) : ∀ (l : List (Str × Entry D)) (c : Cache.Cache D) (i : Int),
    verifyLoop env l (madeCache c) i = (madeCache (Cache.verifyLoop env l c i).1, (Cache.verifyLoop env l c i).2)
  | [], _, _ => rfl
  | (k, x) :: l, c, i => by
    simp only [verifyLoop, Cache.verifyLoop, cdel_made]
    split
    · exact verifyLoop_made env l _ _
    · exact verifyLoop_made env l _ _

theorem verify_made (c : Cache.Cache D) (env : Env) :
    verify (madeCache c) env = (madeCache (Cache.verify c env).1, (Cache.verify c env).2) := by
  simp only [verify, Cache.verify, Cache.clean, mClean_made]
  cases h : Cache.mClean c env 0 with
  | mk c' o =>
    cases o with
    | none => rfl
    | some i =>
      have e1 : (madeCache c').hasValidator = c'.hasValidator := rfl
      have e2 : (madeCache c').items.pairs = c'.items := rfl
      simp only [e1, e2, verifyLoop_made]
      split <;> rfl

theorem cset_made (c : Cache.Cache D) (env : Env) (k : Str) (d : D) :
    cset (madeCache c) env k d = (madeCache (Cache.set c env k d).1, (Cache.set c env k d).2) := by
  let c1 : Cache.Cache D := { c with
    items := c.items.set k { ctime := env.clk 0, rtime := env.clk 1, ttl := 0, data := d },
    pile := (if (c.items.get k).isSome then Cache.removeFromPile c.pile k else c.pile) ++ [k] }
  have e : cset (madeCache c) env k d = if 0 < c1.maxitems ∧ c1.maxitems ≤ c1.items.length then
      ((mClean (madeCache c1) env 10).1, (mClean (madeCache c1) env 10).2.isSome) else (madeCache c1, true) := rfl
  have e' : Cache.set c env k d = if 0 < c1.maxitems ∧ c1.maxitems ≤ c1.items.length then
      ((Cache.mClean c1 env 10).1, (Cache.mClean c1 env 10).2.isSome) else (c1, true) := rfl
  rw [e, e', mClean_made]
  split <;> rfl

theorem cget_made (c : Cache.Cache D) (env : Env) (k : Str) :
    cget (madeCache c) env k = (madeCache (Cache.get c env k).1, (Cache.get c env k).2) := by
  have e : (madeCache c).items.get k = c.items.get k := rfl
  unfold cget Cache.get
  rw [e]
  cases AMap.get c.items k with
  | none => rfl
  | some x =>
    show (if Cache.invalid c env k x = true then (madeCache (Cache.del c k), (none, true)) else _) = _
    cases h : Cache.invalid c env k x <;> simp only [h, Bool.false_eq_true, if_true, if_false] <;> rfl

theorem cstep_made (c : Cache.Cache D) (env : Env) (op : Op D) :
    cstep (madeCache c) env op = (madeCache (Cache.step c env op).1, (Cache.step c env op).2) := by
  cases op with
  | set k d => simp only [cstep, Cache.step, cset_made]
  | setTTL k t =>
    simp only [cstep, Cache.step, csetTTL, Cache.setTTL, madeCache, GoMap.get]
    cases AMap.get c.items k <;> rfl
  | get k =>
    simp only [cstep, Cache.step, cget_made]
  | del k => rfl
  | count => rfl
  | clean q => simp only [cstep, Cache.step, Cache.clean, mClean_made]; cases (Cache.mClean c env q).2 <;> rfl
  | verify => simp only [cstep, Cache.step, verify_made]; cases (Cache.verify c env).2 <;> rfl
  | flush => rfl
  | setMaxitems m => rfl
  | setExpire e => rfl
  | setValidator b => rfl

theorem crun_made : ∀ (h : List (Env × Op D)) (c : Cache.Cache D),
    crun (madeCache c) h = (madeCache (Cache.run c h).1, (Cache.run c h).2)
  | [], _ => rfl
  | (env, op) :: h, c => by simp only [crun, Cache.run, cstep_made, crun_made h]

theorem crun_append : ∀ (h h' : List (Env × Op D)) (c : Cache D),
    crun c (h ++ h') = ((crun (crun c h).1 h').1, (crun c h).2 ++ (crun (crun c h).1 h').2)
  | [], _, _ => rfl
  | (env, op) :: h, h', c => by simp only [List.cons_append, crun, crun_append h]

theorem sweep_nil (e : Int) (env : Env) : Cache.sweep e env ([] : AMap (Entry D)) = [] := by simp [Cache.sweep]

theorem mClean_literal (m e : Int) (v : Bool) (env : Env) (perc : Int) :
    mClean (literalCache m e v : Cache D) env perc = (literalCache m e v, some 0) := by
  have h0 : Cache.cleanNum 0 perc = 0 := by simp [Cache.cleanNum]
  simp [mClean, literalCache, GoMap.pairs, GoMap.left, sweep_nil, Cache.evictLoop, h0]

/-- The exported fields after a call. -/
def fields (m e : Int) (v : Bool) : Op D → Int × Int × Bool
  | .setMaxitems m' => (m', e, v)
  | .setExpire e' => (m, e', v)
  | .setValidator v' => (m, e, v')
  | _ => (m, e, v)

theorem cstep_literal (m e : Int) (v : Bool) (env : Env) (op : Op D) (ho : op ≠ .flush) :
    cstep (literalCache m e v) env op =
      (literalCache (fields m e v op).1 (fields m e v op).2.1 (fields m e v op).2.2, emptyAnswer op) := by
  cases op with
  | flush => exact absurd rfl ho
  | clean q => simp only [cstep, mClean_literal]; rfl
  | verify =>
    simp only [cstep, verify, mClean_literal]
    cases v <;> rfl
  | _ => rfl

theorem verifyLoop_fields (env : Env) : ∀ (l : List (Str × Entry D)) (c : Cache.Cache D) (i : Int),
    (Cache.verifyLoop env l c i).1.maxitems = c.maxitems ∧ (Cache.verifyLoop env l c i).1.expire = c.expire ∧
      (Cache.verifyLoop env l c i).1.hasValidator = c.hasValidator
  | [], _, _ => ⟨rfl, rfl, rfl⟩
  | (k, x) :: l, c, i => by
    rw [Cache.verifyLoop]
    split
    · exact verifyLoop_fields env l _ _
    · exact verifyLoop_fields env l _ _

theorem mClean_fields (c : Cache.Cache D) (env : Env) (q : Int) :
    (Cache.mClean c env q).1.maxitems = c.maxitems ∧ (Cache.mClean c env q).1.expire = c.expire ∧
      (Cache.mClean c env q).1.hasValidator = c.hasValidator := by
  simp only [Cache.mClean]
  cases h : Cache.evictLoop (Cache.cleanNum (Cache.sweep c.expire env c.items).length q).toNat (Cache.sweep c.expire env c.items) c.pile with
  | mk i o => cases o <;> simp

theorem step_fields (c : Cache.Cache D) (env : Env) (op : Op D) :
    ((Cache.step c env op).1.maxitems, (Cache.step c env op).1.expire, (Cache.step c env op).1.hasValidator) =
      fields c.maxitems c.expire c.hasValidator op := by
  cases op with
  | set k d =>
    simp only [Cache.step, Cache.set, fields]
    split
    · rw [(mClean_fields _ env 10).1, (mClean_fields _ env 10).2.1, (mClean_fields _ env 10).2.2]
    · rfl
  | setTTL k t => simp only [Cache.step, Cache.setTTL, fields]; cases AMap.get c.items k <;> rfl
  | get k =>
    simp only [Cache.step, Cache.get, fields]
    cases AMap.get c.items k with
    | none => rfl
    | some x => simp only; split <;> rfl
  | clean q =>
    simp only [Cache.step, Cache.clean, fields]
    rw [(mClean_fields _ env q).1, (mClean_fields _ env q).2.1, (mClean_fields _ env q).2.2]
  | verify =>
    simp only [Cache.step, Cache.verify, Cache.clean, fields]
    have hm := mClean_fields c env 0
    cases h : Cache.mClean c env 0 with
    | mk c' o =>
      rw [h] at hm
      simp only at hm
      cases o with
      | none => simp only [hm]
      | some i =>
        simp only
        split
        · simp only [verifyLoop_fields, hm]
        · simp only [hm]
  | _ => rfl

theorem crun_literal : ∀ (h : List (Env × Op D)) (c : Cache.Cache D), (∀ x ∈ h, x.2 ≠ .flush) →
    crun (literalCache c.maxitems c.expire c.hasValidator) h =
      (literalCache (Cache.run c h).1.maxitems (Cache.run c h).1.expire (Cache.run c h).1.hasValidator, h.map fun x => emptyAnswer x.2)
  | [], _, _ => rfl
  | (env, op) :: h, c, hh => by
    have ih := crun_literal h (Cache.step c env op).1 (fun x hx => hh x (by simp [hx]))
    have hf := step_fields c env op
    simp only [crun, Cache.run, cstep_literal _ _ _ env op (hh (env, op) (by simp)), List.map_cons]
    rw [← hf]
    simp only [ih]

/-! ## XDatasetTS -/

open Dataset in
theorem alone_empty (x : Ext) (n : Nat) (h : Heap) (a : Addr) (ha : target h a = none) (op : TSOp) :
    (tsMethod x n a op).alone h = (h, .panic) := by
  have hg : ∀ k, Dataset.get h a k = .panic := by
    intro k
    unfold Dataset.get
    have hs := split_ne_nil 62 k
    cases e : split 62 k with
    | nil => exact absurd e hs
    | cons s l => cases l <;> simp [getSegs, ha]
  cases op <;> simp [tsMethod, tsRead, tsWrite, Lock.Method.alone, Lock.runCode, ha, hg, getDataset, getCollection, getString, getBool, getInt, getFloat,
    getTime, getSlice, Res.map, Res.bind]

theorem calls_held {σ ρ Ω Op : Type} (meth : Op → Lock.Method σ ρ Ω) (s : σ) : ∀ h : List Op,
    calls meth (s, true) h = ((s, true), h.map fun _ => .blocks)
  | [] => rfl
  | op :: h => by simp only [calls, call, if_true, calls_held meth s h, List.map_cons]

theorem calls_outcomes {σ ρ Ω Op : Type} (meth : Op → Lock.Method σ ρ Ω) (seq : Op → σ → σ × Res Ω) (keeps : Op → Bool) (I : σ → Prop)
    (hseq : ∀ op s, (meth op).alone s = seq op s) (hI : ∀ op s, I s → I (seq op s).1)
    (hk : ∀ op s, I s → (seq op s).2 = .panic → keeps op = !(meth op).deferred) :
    ∀ (h : List Op) (s : σ), I s → (calls meth (s, false) h).2 = outcomes seq keeps s h := by
  intro h
  induction h with
  | nil => intros; rfl
  | cons op h ih =>
    intro s hs
    have hs' := hI op s hs
    have hk' := hk op s hs
    have e := hseq op s
    simp only [calls, call, outcomes, Bool.false_eq_true, if_false, e]
    generalize seq op s = q at hs' hk'
    obtain ⟨s', r⟩ := q
    dsimp only at hs' hk' ⊢
    cases r with
    | ok o => dsimp only; rw [ih s' hs']
    | panic =>
      have hk' := hk' rfl
      dsimp only
      cases hd : (meth op).deferred with
      | true => rw [hd] at hk'; simp [hk', ih s' hs']
      | false => rw [hd] at hk'; simp [hk', calls_held]
    | diverge => dsimp only; rw [calls_held]

end Xcore.Zero
