import Verif.Spec.LanguageRace
import Verif.Proof.LanguageConc
import Verif.Proof.V1.Language

/-! Proofs for Props/LanguageRace.lean. -/

namespace Xcore.LangRace

open Xcore.Language (Lang XLang Call TSOp lineSection scan loadable Assigns)
open Lock (upd)

/-! ## Who holds the mutex -/

/-- What a goroutine holds. -/
inductive Held where
  | no
  | read
  | write
  deriving DecidableEq

def next : Held → Instr → Option Held
  | .no, .lock => some .write
  | .no, .rlock => some .read
  | .write, .unlock => some .no
  | .read, .runlock => some .no
  | h, .read _ => some h
  | h, .write _ => some h
  | _, _ => none

/-- The access is allowed: maps are read under a lock and written under the write lock. -/
def allowed : Held → Instr → Prop
  | .no, .read x => x = .name ∨ x = .language
  | .no, .write w => w.cell = .name ∨ w.cell = .language
  | .read, .write w => w.cell = .name ∨ w.cell = .language
  | _, _ => True

def Guarded : Held → List Instr → Prop
  | _, [] => True
  | h, i :: is => allowed h i ∧ ∃ h', next h i = some h' ∧ Guarded h' is

def fin : Held → List Instr → Option Held
  | h, [] => some h
  | h, i :: is => (next h i).bind fun h' => fin h' is

theorem fin_append (h : Held) (p q : List Instr) : fin h (p ++ q) = (fin h p).bind fun h' => fin h' q := by
  induction p generalizing h with
  | nil => rfl
  | cons i is ih =>
    simp only [List.cons_append, fin]
    cases next h i with
    | none => rfl
    | some h' => exact ih h'

theorem guarded_append {h h' : Held} {p q : List Instr} (hp : Guarded h p) (hf : fin h p = some h') (hq : Guarded h' q) : Guarded h (p ++ q) := by
  induction p generalizing h with
  | nil => cases hf; exact hq
  | cons i is ih =>
    obtain ⟨h1, h2, h3, h4⟩ := hp
    refine ⟨h1, h2, h3, ih h4 ?_⟩
    simpa [fin, h3] using hf

/-- A piece of a program that begins and ends without lock. -/
def Whole (p : List Instr) : Prop := Guarded .no p ∧ fin .no p = some .no

theorem Whole.append {p q : List Instr} (hp : Whole p) (hq : Whole q) : Whole (p ++ q) :=
  ⟨guarded_append hp.1 hp.2 hq.1, by rw [fin_append, hp.2]; exact hq.2⟩

theorem Whole.nil : Whole [] := ⟨trivial, rfl⟩

theorem Whole.flatMap {α : Type} {f : α → List Instr} (hf : ∀ a, Whole (f a)) (as : List α) : Whole (as.flatMap f) := by
  induction as with
  | nil => exact .nil
  | cons a as ih => rw [List.flatMap_cons]; exact (hf a).append ih

theorem whole_line (line : Str) : Whole (lineCode line) := by
  unfold lineCode
  split
  · exact ⟨⟨trivial, _, rfl, trivial, _, rfl, trivial, _, rfl, trivial⟩, rfl⟩
  · exact .nil

theorem write_guarded (es : List Xcore.Language.XEntry) :
    Guarded .write (es.flatMap fun e => [.write (.entry e.id e.entry), .write (.status e.id e.status)]) ∧
    fin .write (es.flatMap fun e => [.write (.entry e.id e.entry), .write (.status e.id e.status)]) = some .write := by
  induction es with
  | nil => exact ⟨trivial, rfl⟩
  | cons e es ih => exact ⟨⟨trivial, _, rfl, trivial, _, rfl, ih.1⟩, ih.2⟩

theorem whole_code (um : Str → Option XLang) (pt : Str → Str) (u : Use) : Whole (code um pt u) := by
  have l3 : ∀ w, Whole [.lock, .write w, .unlock] := fun w =>
    ⟨⟨trivial, _, rfl, trivial, _, rfl, trivial, _, rfl, trivial⟩, rfl⟩
  have r3 : ∀ x, Whole [.rlock, .read x, .runlock] := fun x => ⟨⟨trivial, _, rfl, trivial, _, rfl, trivial, _, rfl, trivial⟩, rfl⟩
  cases u with
  | goString => exact r3 _
  | call c =>
    cases c with
    | get _ => exact r3 _
    | getStatus _ => exact r3 _
    | getEntries => exact r3 _
    | toString => exact r3 _
    | getXML => exact ⟨⟨trivial, _, rfl, trivial, _, rfl, trivial, _, rfl, trivial, _, rfl, trivial, _, rfl, trivial, _, rfl, trivial⟩, rfl⟩
    | getName => exact ⟨⟨Or.inl rfl, _, rfl, trivial⟩, rfl⟩
    | getLanguage => exact ⟨⟨Or.inr rfl, _, rfl, trivial⟩, rfl⟩
    | change op =>
      cases op with
      | set e v => exact l3 _
      | setStatus e v => exact l3 _
      | del e => exact ⟨⟨trivial, _, rfl, trivial, _, rfl, trivial, _, rfl, trivial, _, rfl, trivial⟩, rfl⟩
      | load data => exact Whole.flatMap whole_line _
      | setName n => exact ⟨⟨Or.inl rfl, _, rfl, trivial⟩, rfl⟩
      | setLanguage n => exact ⟨⟨Or.inr rfl, _, rfl, trivial⟩, rfl⟩
      | loadXML data =>
        simp only [code]
        cases um data with
        | none => exact .nil
        | some d =>
          have h1 : Guarded .no [Instr.write (.name d.name), .write (.language (pt d.language)), .lock] :=
            ⟨Or.inl rfl, _, rfl, Or.inr rfl, _, rfl, trivial, _, rfl, trivial⟩
          have h2 := guarded_append h1 rfl (write_guarded d.entries).1
          have h3 : fin .no ([Instr.write (.name d.name), .write (.language (pt d.language)), .lock] ++
              d.entries.flatMap fun e => [.write (.entry e.id e.entry), .write (.status e.id e.status)]) = some .write := by
            rw [fin_append]; exact (write_guarded d.entries).2
          refine ⟨guarded_append h2 h3 ⟨trivial, _, rfl, trivial⟩, ?_⟩
          dsimp only
          rw [fin_append, h3]
          rfl

/-! ## The invariant -/

structure Inv (c : Config) (h : Nat → Held) : Prop where
  guarded : ∀ i, Guarded (h i) (c.todo i)
  writer : ∀ i, h i = .write → c.writer = some i
  reader : ∀ i, h i = .read → i ∈ c.readers
  alone : ∀ i, h i = .write → ∀ j, j ≠ i → h j = .no

theorem no_of {c : Config} {h : Nat → Held} (hi : Inv c h) (hw : c.writer = none) (hr : c.readers = []) (j : Nat) : h j = .no := by
  cases e : h j with
  | no => rfl
  | read => have := hi.reader j e; rw [hr] at this; cases this
  | write => have := hi.writer j e; rw [hw] at this; cases this

theorem Inv.step {c c' : Config} {i : Nat} {h : Nat → Held} (hi : Inv c h) (hs : Step c i c') : ∃ h', Inv c' h' := by
  have key : ∀ {ins rest}, c.todo i = ins :: rest → ∃ x, next (h i) ins = some x ∧ Guarded x rest := by
    intro ins rest ht
    have := hi.guarded i
    rw [ht] at this
    exact this.2
  have gd : ∀ {x rest}, Guarded x rest → ∀ j, Guarded (upd h i x j) (upd c.todo i rest j) := by
    intro x rest hg j
    by_cases e : j = i
    · subst e; simpa using hg
    · rw [Lock.upd_ne _ _ e, Lock.upd_ne _ _ e]; exact hi.guarded j
  have same : ∀ {rest tb}, Guarded (h i) rest → Inv { c with table := tb, todo := upd c.todo i rest } h := by
    intro rest tb hg
    refine ⟨fun j => ?_, hi.writer, hi.reader, hi.alone⟩
    have := gd (x := h i) hg j
    by_cases e : j = i
    · subst e; simpa using hg
    · rw [Lock.upd_ne _ _ e] at this; exact this
  cases hs with
  | lock ht hw hr =>
    obtain ⟨x, h1, h2⟩ := key ht
    have hn := no_of hi hw hr
    rw [hn i] at h1; cases h1
    refine ⟨upd h i .write, gd h2, ?_, ?_, ?_⟩
    · intro j hj
      by_cases e : j = i
      · rw [e]
      · rw [Lock.upd_ne _ _ e, hn j] at hj; cases hj
    · intro j hj
      by_cases e : j = i
      · subst e; simp at hj
      · rw [Lock.upd_ne _ _ e, hn j] at hj; cases hj
    · intro j hj k hk
      by_cases e : j = i
      · subst e; rw [Lock.upd_ne _ _ hk]; exact hn k
      · rw [Lock.upd_ne _ _ e, hn j] at hj; cases hj
  | unlock ht =>
    obtain ⟨x, h1, h2⟩ := key ht
    have hw : h i = .write := by
      cases e : h i <;> rw [e] at h1 <;> first | rfl | cases h1
    rw [hw] at h1; cases h1
    have hn : ∀ j, upd h i .no j = .no := by
      intro j
      by_cases e : j = i
      · subst e; simp
      · rw [Lock.upd_ne _ _ e]; exact hi.alone i hw j e
    refine ⟨upd h i .no, gd h2, ?_, ?_, ?_⟩ <;> intro j hj <;> rw [hn j] at hj <;> cases hj
  | rlock ht hw =>
    obtain ⟨x, h1, h2⟩ := key ht
    have hno : h i = .no := by
      cases e : h i <;> rw [e] at h1 <;> first | rfl | cases h1
    rw [hno] at h1; cases h1
    have nw : ∀ j, h j ≠ .write := fun j e => by have := hi.writer j e; rw [hw] at this; cases this
    have nw' : ∀ j, upd h i .read j ≠ .write := by
      intro j
      by_cases e : j = i
      · subst e; simp
      · rw [Lock.upd_ne _ _ e]; exact nw j
    refine ⟨upd h i .read, gd h2, fun j hj => absurd hj (nw' j), ?_, fun j hj => absurd hj (nw' j)⟩
    intro j hj
    by_cases e : j = i
    · subst e; exact List.mem_cons_self
    · rw [Lock.upd_ne _ _ e] at hj; exact List.mem_cons_of_mem _ (hi.reader j hj)
  | runlock ht =>
    obtain ⟨x, h1, h2⟩ := key ht
    have hr : h i = .read := by
      cases e : h i <;> rw [e] at h1 <;> first | rfl | cases h1
    rw [hr] at h1; cases h1
    have nw : ∀ j, h j ≠ .write := by
      intro j e
      by_cases ej : i = j
      · subst ej; rw [hr] at e; cases e
      · have := hi.alone j e i ej; rw [hr] at this; cases this
    have nw' : ∀ j, upd h i .no j ≠ .write := by
      intro j
      by_cases e : j = i
      · subst e; simp
      · rw [Lock.upd_ne _ _ e]; exact nw j
    refine ⟨upd h i .no, gd h2, fun j hj => absurd hj (nw' j), ?_, fun j hj => absurd hj (nw' j)⟩
    intro j hj
    by_cases e : j = i
    · subst e; simp at hj
    · rw [Lock.upd_ne _ _ e] at hj; exact (List.mem_erase_of_ne e).2 (hi.reader j hj)
  | read ht =>
    obtain ⟨x, h1, h2⟩ := key ht
    have : x = h i := by cases e : h i <;> rw [e] at h1 <;> cases h1 <;> rfl
    exact ⟨h, same (tb := c.table) (this ▸ h2)⟩
  | write ht =>
    obtain ⟨x, h1, h2⟩ := key ht
    have : x = h i := by cases e : h i <;> rw [e] at h1 <;> cases h1 <;> rfl
    exact ⟨h, same (this ▸ h2)⟩

theorem Inv.reach {c0 c : Config} {h : Nat → Held} (h0 : Inv c0 h) (hr : Reach c0 c) : ∃ h', Inv c h' := by
  induction hr with
  | refl => exact ⟨h, h0⟩
  | step _ hs ih => obtain ⟨h', hi⟩ := ih; exact hi.step hs

theorem Inv.start (um : Str → Option XLang) (pt : Str → Str) (l : Lang) (calls : Nat → List Use) : Inv (start um pt l calls) fun _ => .no :=
  ⟨fun i => (Whole.flatMap (whole_code um pt) (calls i)).1, fun _ h => (nomatch h), fun _ h => (nomatch h), fun _ h => (nomatch h)⟩

theorem Inv.no_race {c : Config} {h : Nat → Held} (hi : Inv c h) {x : Cell} (hx : x = .entries ∨ x = .status) : ¬ Race c x := by
  rintro ⟨i, j, hij, ⟨w, rest, h1, h2⟩, hj⟩
  have hne : ¬ (x = .name ∨ x = .language) := by rcases hx with rfl | rfl <;> simp
  have hw : h i = .write := by
    have hg := hi.guarded i
    rw [h1] at hg
    have ha := hg.1
    cases e : h i with
    | write => rfl
    | no => rw [e] at ha; simp only [allowed, h2] at ha; exact absurd ha hne
    | read => rw [e] at ha; simp only [allowed, h2] at ha; exact absurd ha hne
  have hno := hi.alone i hw j (Ne.symm hij)
  have hg := hi.guarded j
  rw [hno] at hg
  rcases hj with ⟨w', rest', h3, h4⟩ | ⟨rest', h3⟩
  · rw [h3] at hg
    have ha := hg.1
    simp only [allowed, h4] at ha
    exact hne ha
  · rw [h3] at hg
    exact hne hg.1

/-! ## What is still to be done comes from the calls -/

theorem todo_suffix {c0 c : Config} (hr : Reach c0 c) (i : Nat) : c.todo i <:+ c0.todo i := by
  induction hr with
  | refl => exact List.suffix_refl _
  | @step c c' j h hs ih =>
    have key : ∀ {ins rest}, c.todo j = ins :: rest → upd c.todo j rest i <:+ c0.todo i := by
      intro ins rest ht
      by_cases e : i = j
      · subst e
        rw [ht] at ih
        simpa using (List.suffix_cons ins rest).trans ih
      · rw [Lock.upd_ne _ _ e]; exact ih
    cases hs with
    | lock ht | unlock ht | rlock ht | runlock ht | read ht | write ht => exact key ht

theorem from_call {c0 c : Config} {α : Type} {f : α → List Instr} {calls : Nat → List α} (h0 : ∀ i, c0.todo i = (calls i).flatMap f)
    (hr : Reach c0 c) {i : Nat} {ins : Instr} {rest : List Instr} (ht : c.todo i = ins :: rest) : ∃ u ∈ calls i, ins ∈ f u := by
  have hm : ins ∈ c0.todo i := (todo_suffix hr i).subset (by rw [ht]; exact List.mem_cons_self)
  rw [h0] at hm
  exact List.mem_flatMap.1 hm

theorem mem_line {line : Str} {ins : Instr} (h : ins ∈ lineCode line) : ins = .lock ∨ ins = .unlock ∨ ∃ k v, ins = .write (.entry k v) := by
  unfold lineCode at h
  split at h
  · rename_i k v _
    simp only [List.mem_cons, List.not_mem_nil, or_false] at h
    rcases h with h | h | h
    · exact Or.inl h
    · exact Or.inr (Or.inr ⟨k, v, h⟩)
    · exact Or.inr (Or.inl h)
  · cases h

theorem write_origin {um : Str → Option XLang} {pt : Str → Str} {u : Use} {w : Write} (h : Instr.write w ∈ code um pt u) :
    (w.cell = .name → SetsName um u) ∧ (w.cell = .language → SetsLanguage um u) := by
  cases u with
  | goString => simp [code] at h
  | call c =>
    cases c with
    | get _ | getStatus _ | getEntries | toString | getXML | getName | getLanguage => simp [code] at h
    | change op =>
      cases op with
      | set e v | setStatus e v => simp [code] at h; subst h; simp [Write.cell]
      | del e => simp [code] at h; rcases h with rfl | rfl <;> simp [Write.cell]
      | load data =>
        obtain ⟨line, _, hl⟩ := List.mem_flatMap.1 h
        rcases mem_line hl with e | e | ⟨k, v, e⟩
        · cases e
        · cases e
        · cases e; simp [Write.cell]
      | setName n => exact ⟨fun _ => Or.inl ⟨n, rfl⟩, fun e => by simp [code] at h; subst h; simp [Write.cell] at e⟩
      | setLanguage t => exact ⟨fun e => by simp [code] at h; subst h; simp [Write.cell] at e, fun _ => Or.inl ⟨t, rfl⟩⟩
      | loadXML data =>
        cases hd : um data with
        | none => simp [code, hd] at h
        | some d => exact ⟨fun _ => Or.inr ⟨data, d, rfl, hd⟩, fun _ => Or.inr ⟨data, d, rfl, hd⟩⟩

theorem read_origin {um : Str → Option XLang} {pt : Str → Str} {u : Use} {x : Cell} (h : Instr.read x ∈ code um pt u) :
    (x = .name → LooksAtName u) ∧ (x = .language → LooksAtLanguage u) := by
  cases u with
  | goString => simp [code] at h; subst h; simp
  | call c =>
    cases c with
    | get _ | getStatus _ | getEntries | toString => simp [code] at h; subst h; simp
    | getXML => exact ⟨fun _ => Or.inr rfl, fun _ => Or.inr rfl⟩
    | getName => simp [code] at h; subst h; exact ⟨fun _ => Or.inl rfl, fun e => by cases e⟩
    | getLanguage => simp [code] at h; subst h; exact ⟨fun e => by (cases e), fun _ => Or.inl rfl⟩
    | change op =>
      cases op with
      | set e v | setStatus e v | del e | setName n | setLanguage t => simp [code] at h
      | load data =>
        obtain ⟨line, _, hl⟩ := List.mem_flatMap.1 h
        rcases mem_line hl with e | e | ⟨k, v, e⟩ <;> cases e
      | loadXML data =>
        cases hd : um data with
        | none => simp [code, hd] at h
        | some d => simp [code, hd] at h

/-! ## Running one goroutine alone -/

/-- The mutex when goroutine `j` holds `h` and nobody else anything. -/
def Solo (c : Config) (j : Nat) (h : Held) : Prop :=
  c.writer = (if h = .write then some j else none) ∧ c.readers = if h = .read then [j] else []

theorem Solo.other {c : Config} {i j : Nat} (h : Solo c i .no) : Solo c j .no := h

theorem reach_trans {a b c : Config} (h1 : Reach a b) (h2 : Reach b c) : Reach a c := by
  induction h2 with
  | refl => exact h1
  | step _ hs ih => exact .step ih hs

theorem solo_run (p : List Instr) {c : Config} {j : Nat} {h h' : Held} {rest : List Instr} (hs : Solo c j h) (ht : c.todo j = p ++ rest)
    (hf : fin h p = some h') : ∃ c', Reach c c' ∧ Solo c' j h' ∧ c'.todo j = rest ∧ ∀ k, k ≠ j → c'.todo k = c.todo k := by
  induction p generalizing c h with
  | nil => cases hf; exact ⟨c, .refl, hs, ht, fun _ _ => rfl⟩
  | cons ins p ih =>
    have hn : ∃ x, next h ins = some x ∧ fin x p = some h' := by
      simp only [fin] at hf
      cases e : next h ins with
      | none => rw [e] at hf; cases hf
      | some x => rw [e] at hf; exact ⟨x, rfl, hf⟩
    obtain ⟨x, h1, h2⟩ := hn
    have go : ∀ c1, Step c j c1 → Solo c1 j x → c1.todo = upd c.todo j (p ++ rest) →
        ∃ c', Reach c c' ∧ Solo c' j h' ∧ c'.todo j = rest ∧ ∀ k, k ≠ j → c'.todo k = c.todo k := by
      intro c1 hst hso htd
      obtain ⟨c', r1, r2, r3, r4⟩ := ih hso (by rw [htd]; simp) h2
      refine ⟨c', reach_trans (.step .refl hst) r1, r2, r3, fun k hk => ?_⟩
      rw [r4 k hk, htd, Lock.upd_ne _ _ hk]
    rw [List.cons_append] at ht
    obtain ⟨hw, hr⟩ := hs
    cases ins with
    | lock => cases h <;> cases h1; exact go _ (.lock ht hw hr) ⟨rfl, hr⟩ rfl
    | unlock => cases h <;> cases h1; exact go _ (.unlock ht) ⟨rfl, hr⟩ rfl
    | rlock => cases h <;> cases h1; exact go _ (.rlock ht hw) ⟨hw, by simp at hr; simp [hr]⟩ rfl
    | runlock => cases h <;> cases h1; exact go _ (.runlock ht) ⟨hw, by simp at hr; simp [hr]⟩ rfl
    | read y => have : x = h := by cases h <;> cases h1 <;> rfl
                subst this; exact go _ (.read ht) ⟨hw, hr⟩ rfl
    | write w => have : x = h := by cases h <;> cases h1 <;> rfl
                 subst this; exact go _ (.write ht) ⟨hw, hr⟩ rfl

/-- Two goroutines brought to the points where they access a cell: the first holds no lock there. -/
theorem bring {c : Config} {i j : Nat} (hij : i ≠ j) (hw : c.writer = none) (hr : c.readers = []) {p q ri rj : List Instr} {a b : Instr} {h : Held}
    (hi : c.todo i = p ++ a :: ri) (hp : fin .no p = some .no) (hj : c.todo j = q ++ b :: rj) (hq : fin .no q = some h) :
    ∃ c', Reach c c' ∧ c'.todo i = a :: ri ∧ c'.todo j = b :: rj := by
  obtain ⟨c1, r1, s1, t1, o1⟩ := solo_run p (h := .no) (j := i) ⟨by simpa using hw, by simpa using hr⟩ hi hp
  obtain ⟨c2, r2, _, t2, o2⟩ := solo_run q (h := .no) (j := j) (c := c1) s1.other (by rw [o1 j hij.symm]; exact hj) hq
  exact ⟨c2, reach_trans r1 r2, by rw [o2 i hij]; exact t1, t2⟩

/-- The point in the program of a goroutine where one of its calls makes an access. -/
theorem point {α : Type} {f : α → List Instr} (hf : ∀ u, fin .no (f u) = some .no) {us : List α} {u : α} (hu : u ∈ us) {p r : List Instr} {a : Instr}
    {h : Held} (hc : f u = p ++ a :: r) (hp : fin .no p = some h) : ∃ q r', us.flatMap f = q ++ a :: r' ∧ fin .no q = some h := by
  obtain ⟨l, m, rfl⟩ := List.append_of_mem hu
  have hl : fin .no (l.flatMap f) = some .no := by
    clear hu
    induction l with
    | nil => rfl
    | cons x l ih => rw [List.flatMap_cons, fin_append, hf]; exact ih
  refine ⟨l.flatMap f ++ p, r ++ m.flatMap f, by simp [hc], ?_⟩
  rw [fin_append, hl]
  exact hp

theorem setsName_point {um : Str → Option XLang} (pt : Str → Str) {u : Use} (h : SetsName um u) :
    ∃ w r, code um pt u = [] ++ Instr.write w :: r ∧ w.cell = .name := by
  rcases h with ⟨n, rfl⟩ | ⟨data, d, rfl, hd⟩
  · exact ⟨.name n, [], rfl, rfl⟩
  · have : code um pt (.call (.change (.loadXML data))) = [] ++ Instr.write (.name d.name) :: (code um pt (.call (.change (.loadXML data)))).tail := by
      simp only [code, hd]
      rfl
    exact ⟨_, _, this, rfl⟩

theorem setsLanguage_point {um : Str → Option XLang} (pt : Str → Str) {u : Use} (h : SetsLanguage um u) :
    ∃ p w r, code um pt u = p ++ Instr.write w :: r ∧ w.cell = .language ∧ fin .no p = some .no := by
  rcases h with ⟨n, rfl⟩ | ⟨data, d, rfl, hd⟩
  · exact ⟨[], .language n, [], rfl, rfl, rfl⟩
  · have : code um pt (.call (.change (.loadXML data))) =
        [.write (.name d.name)] ++ Instr.write (.language (pt d.language)) :: (code um pt (.call (.change (.loadXML data)))).tail.tail := by
      simp only [code, hd]
      rfl
    exact ⟨_, _, _, this, rfl, rfl⟩

theorem looksAtName_point (um : Str → Option XLang) (pt : Str → Str) {u : Use} (h : LooksAtName u) :
    ∃ p r x, code um pt u = p ++ Instr.read .name :: r ∧ fin .no p = some x := by
  rcases h with rfl | rfl
  · exact ⟨[], [], .no, rfl, rfl⟩
  · exact ⟨[.rlock, .read .entries, .read .status], _, .read, rfl, rfl⟩

theorem looksAtLanguage_point (um : Str → Option XLang) (pt : Str → Str) {u : Use} (h : LooksAtLanguage u) :
    ∃ p r x, code um pt u = p ++ Instr.read .language :: r ∧ fin .no p = some x := by
  rcases h with rfl | rfl
  · exact ⟨[], [], .no, rfl, rfl⟩
  · exact ⟨[.rlock, .read .entries, .read .status, .read .name], _, .read, rfl, rfl⟩

/-! ## Calls alone -/

theorem after_append (l : Lang) (p q : List Instr) : after l (p ++ q) = after (after l p) q := List.foldl_append

/-- When only one goroutine has something to do, what it still has to do leads to the same table at every point. -/
theorem alone_after {c0 c : Config} {i : Nat} (h0 : ∀ j, j ≠ i → c0.todo j = []) (hr : Reach c0 c) :
    (∀ j, j ≠ i → c.todo j = []) ∧ after c.table (c.todo i) = after c0.table (c0.todo i) := by
  induction hr with
  | refl => exact ⟨h0, rfl⟩
  | step _ hs ih =>
    obtain ⟨h1, h2⟩ := ih
    have key : ∀ {c : Config} {k : Nat} {ins : Instr} {rest : List Instr}, (∀ j, j ≠ i → c.todo j = []) → c.todo k = ins :: rest →
        k = i ∧ (∀ j, j ≠ i → Lock.upd c.todo k rest j = []) ∧ Lock.upd c.todo k rest i = rest := by
      intro c k ins rest h ht
      have hk : k = i := by
        by_cases hk : k = i
        · exact hk
        · rw [h k hk] at ht; cases ht
      subst hk
      refine ⟨rfl, fun j hj => ?_, ?_⟩
      · simp [Lock.upd, hj, h j hj]
      · simp [Lock.upd]
    cases hs with
    | lock ht _ _ | unlock ht | rlock ht _ | runlock ht | read ht | write ht =>
      obtain ⟨rfl, k1, k2⟩ := key h1 ht
      refine ⟨k1, ?_⟩
      rw [← h2, ht]
      simp only [k2]
      rfl

theorem after_flatMap {α : Type} (f : α → List Instr) (g : Lang → α → Lang) (h : ∀ l a, after l (f a) = g l a) (as : List α) (l : Lang) :
    after l (as.flatMap f) = as.foldl g l := by
  induction as generalizing l with
  | nil => rfl
  | cons a as ih => rw [List.flatMap_cons, after_append, h, ih]; rfl

theorem after_line (l : Lang) (line : Str) : after l (lineCode line) = Xcore.Language.loadLine l line := by
  rw [Xcore.Language.lineSection_load]
  unfold lineCode
  rcases Xcore.Language.loadLine_cases line with ⟨k, v, h⟩ | h
  · rw [Xcore.Language.lineSection_assigns h]; rfl
  · rw [Xcore.Language.lineSection_ignored h]; rfl

theorem after_code (um : Str → Option XLang) (pt : Str → Str) (l : Lang) (op : Xcore.Language.Op) :
    after l (code um pt (.call (.change op))) = Xcore.Language.step um pt l op := by
  cases op with
  | set e v | setStatus e v | del e | setName n | setLanguage t => rfl
  | load data => exact after_flatMap lineCode Xcore.Language.loadLine after_line _ l
  | loadXML data =>
    simp only [code, Xcore.Language.step, Xcore.Language.loadXML]
    cases um data with
    | none => rfl
    | some d =>
      dsimp only
      rw [after_append, after_append]
      exact after_flatMap (fun e : Xcore.Language.XEntry => [.write (.entry e.id e.entry), .write (.status e.id e.status)])
        (fun l e => { l with entries := l.entries.set e.id e.entry, status := l.status.set e.id e.status }) (fun _ _ => rfl) _ _

/-! ## Version 1 -/

theorem line1_cases (line : Str) : (∃ k v, Assigns line k v ∧ lineCode1 line = [.write (.entry k v)]) ∨
    (∀ k v, ¬ Assigns line k v) ∧ lineCode1 line = [] := by
  unfold lineCode1
  rcases Xcore.Language.loadLine_cases line with ⟨k, v, h⟩ | h
  · rw [Xcore.Language.lineSection_assigns h]; exact Or.inl ⟨k, v, h, rfl⟩
  · rw [Xcore.Language.lineSection_ignored h]; exact Or.inr ⟨h, rfl⟩

theorem access_origin1 {um : Str → Option V1.Language.XLang} {pt : Str → Str} {u : Use1} {ins : Instr} (h : ins ∈ code1 um pt u) :
    (∃ x, ins = .read x ∧ LooksAt1 u x) ∨ ∃ w, ins = .write w ∧ Sets1 um u w.cell := by
  cases u with
  | get e => simp [code1] at h; subst h; exact Or.inl ⟨_, rfl, Or.inl ⟨e, rfl⟩⟩
  | toString => simp [code1] at h; subst h; exact Or.inl ⟨_, rfl, Or.inr (Or.inl rfl)⟩
  | goString => simp [code1] at h; subst h; exact Or.inl ⟨_, rfl, Or.inr (Or.inr rfl)⟩
  | getName => simp [code1] at h; subst h; exact Or.inl ⟨_, rfl, rfl⟩
  | getLanguage => simp [code1] at h; subst h; exact Or.inl ⟨_, rfl, rfl⟩
  | change op =>
    cases op with
    | set e v => simp [code1] at h; subst h; exact Or.inr ⟨_, rfl, Or.inl ⟨e, v, rfl⟩⟩
    | del e => simp [code1] at h; subst h; exact Or.inr ⟨_, rfl, Or.inr (Or.inl ⟨e, rfl⟩)⟩
    | setName n => simp [code1] at h; subst h; exact Or.inr ⟨_, rfl, Or.inl ⟨n, rfl⟩⟩
    | setLanguage t => simp [code1] at h; subst h; exact Or.inr ⟨_, rfl, Or.inl ⟨t, rfl⟩⟩
    | load data =>
      obtain ⟨line, hl, hi⟩ := List.mem_flatMap.1 h
      rw [Xcore.Language.scan_lines] at hl
      obtain ⟨line0, hl0, rfl⟩ := List.mem_map.1 hl
      rcases line1_cases (Xcore.Language.dropCR line0) with ⟨k, v, h1, h2⟩ | ⟨_, h2⟩
      · rw [h2] at hi
        simp at hi
        subst hi
        exact Or.inr ⟨_, rfl, Or.inr (Or.inr (Or.inl ⟨data, line0, k, v, rfl, hl0, Xcore.Language.assigns_dropCR.1 h1⟩))⟩
      · rw [h2] at hi; cases hi
    | loadXML data =>
      cases hd : um data with
      | none => simp [code1, hd] at h
      | some d =>
        simp only [code1, hd, List.cons_append, List.nil_append, List.mem_cons, List.mem_flatMap, List.not_mem_nil, or_false] at h
        rcases h with rfl | rfl | ⟨e, he, rfl⟩
        · exact Or.inr ⟨_, rfl, Or.inr ⟨data, d, rfl, hd⟩⟩
        · exact Or.inr ⟨_, rfl, Or.inr ⟨data, d, rfl, hd⟩⟩
        · exact Or.inr ⟨_, rfl, Or.inr (Or.inr (Or.inr ⟨data, d, rfl, hd, List.ne_nil_of_mem he⟩))⟩

theorem sets_access1 {um : Str → Option V1.Language.XLang} (pt : Str → Str) {u : Use1} {x : Cell} (h : Sets1 um u x) :
    ∃ w, Instr.write w ∈ code1 um pt u ∧ w.cell = x := by
  cases x with
  | name =>
    rcases h with ⟨n, rfl⟩ | ⟨data, d, rfl, hd⟩
    · exact ⟨.name n, by simp [code1], rfl⟩
    · exact ⟨.name d.name, by simp [code1, hd], rfl⟩
  | language =>
    rcases h with ⟨n, rfl⟩ | ⟨data, d, rfl, hd⟩
    · exact ⟨.language n, by simp [code1], rfl⟩
    · exact ⟨.language (pt d.language), by simp [code1, hd], rfl⟩
  | status => exact h.elim
  | entries =>
    rcases h with ⟨e, v, rfl⟩ | ⟨e, rfl⟩ | ⟨data, line, k, v, rfl, hl, ha⟩ | ⟨data, d, rfl, hd, hne⟩
    · exact ⟨.entry e v, by simp [code1], rfl⟩
    · exact ⟨.delEntry e, by simp [code1], rfl⟩
    · refine ⟨.entry k v, List.mem_flatMap.2 ⟨Xcore.Language.dropCR line, ?_, ?_⟩, rfl⟩
      · rw [Xcore.Language.scan_lines]; exact List.mem_map.2 ⟨line, hl, rfl⟩
      · unfold lineCode1
        rw [Xcore.Language.lineSection_assigns (Xcore.Language.assigns_dropCR.2 ha)]
        exact List.mem_singleton.2 rfl
    · obtain ⟨e, he⟩ := List.exists_mem_of_ne_nil _ hne
      refine ⟨.entry e.id e.entry, ?_, rfl⟩
      simp only [code1, hd]
      exact List.mem_append_right _ (List.mem_flatMap.2 ⟨e, he, List.mem_singleton.2 rfl⟩)

theorem looks_access1 (um : Str → Option V1.Language.XLang) (pt : Str → Str) {u : Use1} {x : Cell} (h : LooksAt1 u x) :
    Instr.read x ∈ code1 um pt u := by
  cases x with
  | name => cases h; simp [code1]
  | language => cases h; simp [code1]
  | status => exact h.elim
  | entries => rcases h with ⟨e, rfl⟩ | rfl | rfl <;> simp [code1]

/-- Without locks every point of a program can be reached. -/
theorem fin_unlocked {p : List Instr} (h : ∀ ins ∈ p, (∃ x, ins = .read x) ∨ ∃ w, ins = .write w) : fin .no p = some .no := by
  induction p with
  | nil => rfl
  | cons ins p ih =>
    have := ih fun i hi => h i (List.mem_cons_of_mem _ hi)
    rcases h ins List.mem_cons_self with ⟨x, rfl⟩ | ⟨w, rfl⟩ <;> exact this

theorem unlocked1 {um : Str → Option V1.Language.XLang} {pt : Str → Str} {u : Use1} :
    ∀ ins ∈ code1 um pt u, (∃ x, ins = .read x) ∨ ∃ w, ins = .write w := by
  intro ins h
  rcases access_origin1 h with ⟨x, rfl, _⟩ | ⟨w, rfl, _⟩
  · exact Or.inl ⟨x, rfl⟩
  · exact Or.inr ⟨w, rfl⟩

theorem point1 {um : Str → Option V1.Language.XLang} {pt : Str → Str} {us : List Use1} {u : Use1} (hu : u ∈ us) {a : Instr} (ha : a ∈ code1 um pt u) :
    ∃ q r, us.flatMap (code1 um pt) = q ++ a :: r ∧ fin .no q = some .no := by
  obtain ⟨q, r, e⟩ := List.append_of_mem (List.mem_flatMap.2 ⟨u, hu, ha⟩)
  refine ⟨q, r, e, fin_unlocked fun ins hi => ?_⟩
  have hm : ins ∈ us.flatMap (code1 um pt) := by rw [e]; exact List.mem_append_left _ hi
  obtain ⟨u', _, h'⟩ := List.mem_flatMap.1 hm
  exact unlocked1 ins h'

theorem ofV1_put {l l' : V1.Language.Lang} {k v : Str} (h : V1.Language.put l k v = some l') :
    ofV1 l' = (Write.entry k v).apply (ofV1 l) := by
  obtain ⟨n, t, m⟩ := l
  cases m with
  | none => simp [V1.Language.put] at h
  | some m => simp only [V1.Language.put, Option.some.injEq] at h; subst h; rfl

theorem ofV1_line {l l' : V1.Language.Lang} {line : Str} (h : V1.Language.loadLine l line = some l') : after (ofV1 l) (lineCode1 line) = ofV1 l' := by
  unfold V1.Language.loadLine at h
  unfold lineCode1 lineSection
  cases hi : indexByte 61 line with
  | none => rw [hi] at h; cases h; rfl
  | some p =>
    rw [hi] at h
    dsimp only at h ⊢
    split at h
    · rename_i hc; rw [if_pos hc]; cases h; rfl
    · rename_i hc
      rw [if_neg hc]
      split at h
      · rename_i hk; rw [if_pos hk]; cases h; rfl
      · rename_i hk; rw [if_neg hk, ofV1_put h]; rfl

theorem after_foldlM {α : Type} {f : V1.Language.Lang → α → Option V1.Language.Lang} {g : α → List Instr}
    (h : ∀ l l' a, f l a = some l' → after (ofV1 l) (g a) = ofV1 l') (as : List α) (l l' : V1.Language.Lang) (hf : as.foldlM f l = some l') :
    after (ofV1 l) (as.flatMap g) = ofV1 l' := by
  induction as generalizing l with
  | nil => cases hf; rfl
  | cons a as ih =>
    rw [List.foldlM_cons] at hf
    cases e : f l a with
    | none => rw [e] at hf; cases hf
    | some l1 => rw [e] at hf; rw [List.flatMap_cons, after_append, h _ _ _ e]; exact ih l1 hf

theorem after_code1 (um : Str → Option V1.Language.XLang) (pt : Str → Str) {l l' : V1.Language.Lang} {op : V1.Language.Op}
    (h : V1.Language.step um pt l op = some l') : after (ofV1 l) (code1 um pt (.change op)) = ofV1 l' := by
  cases op with
  | set e v => exact (ofV1_put h).symm
  | del e =>
    cases h
    obtain ⟨n, t, m⟩ := l
    cases m <;> rfl
  | setName n => cases h; rfl
  | setLanguage t => cases h; rfl
  | load data =>
    simp only [V1.Language.step, V1.Language.loadString, Option.map_map, Option.map_eq_some_iff] at h
    obtain ⟨l1, h1, rfl⟩ := h
    exact after_foldlM (f := V1.Language.loadLine) (fun _ _ _ h => ofV1_line h) _ _ _ h1
  | loadXML data =>
    simp only [V1.Language.step, V1.Language.loadXML] at h
    simp only [code1]
    cases hd : um data with
    | none => rw [hd] at h; cases h; rfl
    | some d =>
      rw [hd] at h
      simp only [Option.map_map, Option.map_eq_some_iff] at h
      obtain ⟨l1, h1, rfl⟩ := h
      dsimp only
      rw [after_append]
      exact after_foldlM (g := fun e : V1.Language.XEntry => [.write (.entry e.id e.entry)]) (fun _ _ e h => (ofV1_put h).symm) _ _ _ h1

end Xcore.LangRace
