import Verif.Proof.NestedSched
import Verif.Proof.Dataset

/-! # A goroutine alone does what the sequential methods do -/

namespace Xcore.Nested

open Dataset Lock

theorem upd_upd {α : Type} (f : Nat → α) (i : Nat) (x y : α) : upd (upd f i x) i y = upd f i y := by
  funext j
  by_cases e : j = i
  · subst e; simp
  · simp [upd_ne _ _ e]

theorem upd_eq {α : Type} (f : Nat → α) (i : Nat) : upd f i (f i) = f := by
  funext j
  by_cases e : j = i
  · subst e; simp
  · simp [upd_ne _ _ e]

/-- Goroutine `i` has the stack `s` and the answer `ans`. -/
def st (h : Heap) (L : Nat → Rw) (g : Nat → Gor) (i : Nat) (s : List Instr) (ans : Option Val) : Conf := ⟨h, L, upd g i ⟨s, ans⟩⟩

variable {h h' : Heap} {L : Nat → Rw} {g : Nat → Gor} {i : Nat} {s s' : List Instr} {ans ans' : Option Val}

theorem st_go (s' : List Instr) : (st h L g i s ans).go i s' = upd g i ⟨s', ans⟩ := by
  simp [st, Conf.go, upd_upd]

theorem st_run {x : Instr} (hl : x.isLock = false) (e : exec h ans x s = .next h' ans' s') : Move (st h L g i (x :: s) ans) i (st h' L g i s' ans') := by
  have := Move.run (c := st h L g i (x :: s) ans) (i := i) (x := x) (s := s) (s' := s') (h' := h') (ans' := ans') (by simp [st]) hl (by simpa [st] using e)
  simpa [st, upd_upd] using this

theorem st_panic {x : Instr} (hl : x.isLock = false) (e : exec h ans x s = .panic) : Move (st h L g i (x :: s) ans) i (st h L g i (unwind s) ans) := by
  have := Move.panic (c := st h L g i (x :: s) ans) (i := i) (x := x) (s := s) (by simp [st]) hl (by simpa [st] using e)
  rw [st_go] at this
  exact this

/-- The lock of `a`, taken by `i` for reading. -/
def taken (L : Nat → Rw) (a i : Nat) : Nat → Rw := upd L a { L a with readers := i :: (L a).readers }

theorem st_rlock {d : Bool} {a : Nat} {x : Instr} (hw : (L a).writer = none) (hp : (L a).pending = none) :
    Move (st h L g i (.enter .read d a x :: s) ans) i (st h (taken L a i) g i (x :: .release .read d a :: s) ans) := by
  have := Move.rlock (c := st h L g i (.enter .read d a x :: s) ans) (i := i) (d := d) (a := a) (x := x) (s := s) (by simp [st]) hw hp
  rw [st_go] at this
  exact this

theorem st_runlock {d : Bool} {a : Nat} : Move (st h (taken L a i) g i (.release .read d a :: s) ans) i (st h L g i s ans) := by
  have := Move.runlock (c := st h (taken L a i) g i (.release .read d a :: s) ans) (i := i) (d := d) (a := a) (s := s) (by simp [st])
  rw [st_go] at this
  have e : upd (taken L a i) a { taken L a i a with readers := (taken L a i a).readers.erase i } = L := by
    simp only [taken, upd_upd, upd_self, List.erase_cons_head]
    exact upd_eq L a
  simp only [st] at this
  rw [e] at this
  exact this

theorem Alone.trans {c1 c2 c3 : Conf} (h1 : Alone i c1 c2) (h2 : Alone i c2 c3) : Alone i c1 c3 := by
  induction h1 with
  | refl => exact h2
  | step hm _ ih => exact .step hm (ih h2)

theorem Alone.one {c1 c2 : Conf} (h : Move c1 i c2) : Alone i c1 c2 := .step h (.refl _)

/-- Readers are let in. -/
def Open (L : Nat → Rw) : Prop := ∀ a, (L a).writer = none ∧ (L a).pending = none

theorem Open.taken (ho : Open L) (a i : Nat) : Open (Nested.taken L a i) := by
  intro b
  by_cases e : b = a
  · subst e; simpa [Nested.taken] using ho b
  · simpa [Nested.taken, upd_ne _ _ e] using ho b

/-- The call at the top of the stack ends with this outcome. -/
def Outcome (h : Heap) (L : Nat → Rw) (g : Nat → Gor) (i : Nat) (s0 s : List Instr) (ans : Option Val) : Res (Option Val) → Prop
  | .ok v => Alone i (st h L g i s0 ans) (st h L g i s v)
  | .panic => ∃ ans', Alone i (st h L g i s0 ans) (st h L g i (unwind s) ans')
  | .diverge => False

theorem Outcome.of_alone {s0 s1 : List Instr} {r : Res (Option Val)} (h1 : Alone i (st h L g i s0 ans) (st h L g i s1 ans'))
    (h2 : Outcome h L g i s1 s ans' r) : Outcome h L g i s0 s ans r := by
  cases r with
  | ok v => exact Alone.trans (i := i) h1 h2
  | panic => obtain ⟨a, h2⟩ := h2; exact ⟨a, Alone.trans (i := i) h1 h2⟩
  | diverge => exact h2.elim

theorem getSegs_target {a b : Nat} (e : target h a = target h b) (segs : List Str) : getSegs h a segs = getSegs h b segs := by
  match segs with
  | [] => rfl
  | [k] => simp only [getSegs, e]
  | k :: k2 :: rest =>
    unfold getSegs
    rw [e]

theorem target_wrapper (wf : WF h) {a b : Nat} (ho : h[a]? = some (.dsTS (some b))) : target h a = target h b := by
  cases e : Dataset.target h b with
  | some t => exact (target_iff wf).2 (.wrapper ho ((target_iff wf).1 e))
  | none =>
    cases e' : Dataset.target h a with
    | none => rfl
    | some t =>
      have := (target_iff wf).1 e'
      cases this with
      | plain hm => rw [ho] at hm; cases hm
      | wrapper hb' w =>
        rw [ho] at hb'; cases hb'
        rw [(target_iff wf).2 w] at e; cases e

theorem elems_isDataset (wf : WF h) {c e : Nat} (hm : some e ∈ elems h c) : IsDataset h e := by
  unfold elems at hm
  split at hm
  · exact wf.elem c _ e (Or.inl (by assumption)) hm
  · exact wf.elem c _ e (Or.inr (by assumption)) hm
  · cases hm

theorem get_alone (wf : WF h) : ∀ (n : Nat) (segs : List Str), segs.length = n → segs ≠ [] → ∀ (a : Nat), IsDataset h a → ∀ (L : Nat → Rw), Open L →
    ∀ (s : List Instr) (ans : Option Val), Outcome h L g i (.call (.get segs) a :: s) s ans (getSegs h a segs) := by
  intro n
  induction n using Nat.strongRecOn with
  | _ n ih =>
    intro segs hn hne a
    induction a using Nat.strongRecOn with
    | _ a iha =>
      intro hd L hL s ans
      rcases hd with ⟨m, hm⟩ | ⟨o, ho⟩
      · -- a plain dataset
        have ht : target h a = some a := (target_iff wf).2 (.plain hm)
        have he : entries h a = m := by simp [entries, hm]
        have hexec : exec h ans (.call (.get segs) a) s = getStep h ans m s segs := by simp [exec, callStep, hm, datasetStep]
        match segs, hne, hn, hexec with
        | [k], _, _, hexec =>
          simp only [getSegs, ht, he]
          exact .one (st_run rfl (by rw [hexec]; rfl))
        | p :: p2 :: rest, _, hn, hexec =>
          simp only [getSegs, ht, he]
          simp only [getStep] at hexec
          cases hv : m.get p with
          | none =>
            rw [hv] at hexec
            exact .one (st_run rfl hexec)
          | some v =>
            rw [hv] at hexec
            simp only at hexec ⊢
            cases hds : asDataset h v with
            | some b =>
              rw [hds] at hexec
              have hb : IsDataset h b := by
                cases v <;> simp [asDataset] at hds
                split at hds <;> simp at hds
                · subst hds; exact Or.inl ⟨_, by assumption⟩
                · subst hds; exact Or.inr ⟨_, by assumption⟩
              exact .of_alone (.one (st_run rfl hexec)) (ih _ (by rw [← hn]; simp) (p2 :: rest) rfl nofun b hb L hL s ans)
            | none =>
              rw [hds] at hexec
              simp only at hexec ⊢
              cases hcs : asCollection h v with
              | none =>
                rw [hcs] at hexec
                exact .one (st_run rfl hexec)
              | some c =>
                rw [hcs] at hexec
                simp only at hexec ⊢
                cases hi : atoi p2 with
                | none =>
                  rw [hi] at hexec
                  exact .one (st_run rfl hexec)
                | some k =>
                  rw [hi] at hexec
                  simp only at hexec ⊢
                  -- what comes after the element is found
                  have hget : ∀ e r rest', rest = r :: rest' → colGet (elems h c) k = some (some e) →
                      Outcome h L g i (.call (.get rest) e :: s) s ans (getSegs h e rest) := by
                    intro e r rest' hr hce
                    exact ih _ (by rw [← hn]; simp only [List.length_cons]; omega) rest rfl (by rw [hr]; nofun) e (elems_isDataset wf (colGet_mem hce)) L hL s ans
                  by_cases hts : ∃ l, h[c]? = some (.colTS l)
                  · obtain ⟨l, hl⟩ := hts
                    rw [hl] at hexec
                    simp only at hexec
                    have h1 : Alone i (st h L g i (.call (.get (p :: p2 :: rest)) a :: s) ans)
                        (st h (taken L c i) g i (.elem true c k rest :: .release .read true c :: s) ans) :=
                      .step (st_run rfl hexec) (.one (st_rlock (hL c).1 (hL c).2))
                    split
                    · rename_i e hce
                      split
                      · refine .trans h1 (.step (st_run rfl ?_) (.one (st_runlock (d := true))))
                        simp only [exec, hce]
                      · refine .of_alone (.trans h1 (.step (st_run rfl ?_) (.one (st_runlock (d := true))))) (hget e _ _ rfl hce)
                        simp only [exec, hce]
                        rfl
                    · rename_i hce
                      refine .trans h1 (.step (st_run rfl ?_) (.one (st_runlock (d := true))))
                      simp only [exec]
                  · have h1 : Alone i (st h L g i (.call (.get (p :: p2 :: rest)) a :: s) ans) (st h L g i (.elem false c k rest :: s) ans) := by
                      refine .one (st_run rfl (hexec.trans ?_))
                      split
                      · rename_i l hl
                        exact absurd ⟨l, hl⟩ hts
                      · rfl
                    split
                    · rename_i e hce
                      split
                      · refine .trans h1 (.one (st_run rfl ?_))
                        simp only [exec, hce]
                      · refine .of_alone (.trans h1 (.one (st_run rfl ?_))) (hget e _ _ rfl hce)
                        simp only [exec, hce]
                        rfl
                    · rename_i hce
                      refine .trans h1 (.one (st_run rfl ?_))
                      simp only [exec]
      · have h1 : Alone i (st h L g i (.call (.get segs) a :: s) ans) (st h (taken L a i) g i (.body (.get segs) a :: .release .read true a :: s) ans) :=
          .step (st_run rfl (by simp only [exec, callStep, ho]; rfl)) (.one (st_rlock (hL a).1 (hL a).2))
        cases o with
        | none =>
          have ht : target h a = none := by simp [target, targetN, ho]
          have hp : getSegs h a segs = .panic := by
            match segs, hne with
            | [k], _ => simp only [getSegs, ht]
            | k :: k2 :: rest, _ => simp only [getSegs, ht]
          rw [hp]
          exact ⟨ans, .trans h1 (.step (st_panic rfl (by simp only [exec, ho])) (.one (st_runlock (d := true))))⟩
        | some b =>
          obtain ⟨hba, hb⟩ := wf.wrapper a b ho
          rw [getSegs_target (target_wrapper wf ho)]
          have h2 := iha b hba hb (taken L a i) (hL.taken a i) (.release .read true a :: s) ans
          have h3 : Alone i (st h (taken L a i) g i (.body (.get segs) a :: .release .read true a :: s) ans)
              (st h (taken L a i) g i (.call (.get segs) b :: .release .read true a :: s) ans) := .one (st_run rfl (by simp only [exec, ho]))
          cases hr : getSegs h b segs with
          | ok v =>
            rw [hr] at h2
            exact .trans h1 (.trans h3 (Alone.trans (i := i) h2 (.one (st_runlock (d := true)))))
          | panic =>
            rw [hr] at h2
            obtain ⟨ans', h2⟩ := h2
            exact ⟨ans', .trans h1 (.trans h3 (.trans h2 (.one (st_runlock (d := true)))))⟩
          | diverge => rw [hr] at h2; exact h2.elim

/-- The lock of `a`, taken by `i` for writing. -/
def takenW (L : Nat → Rw) (a i : Nat) : Nat → Rw := upd L a { L a with writer := some i, pending := none }

theorem st_lock {d : Bool} {a : Nat} {x : Instr} (hf : L a = ⟨none, none, []⟩) :
    Alone i (st h L g i (.enter .write d a x :: s) ans) (st h (takenW L a i) g i (x :: .release .write d a :: s) ans) := by
  have h1 := Move.announce (c := st h L g i (.enter .write d a x :: s) ans) (i := i) (d := d) (a := a) (x := x) (s := s) (by simp [st])
    (by simp [st, hf]) (by simp [st, hf])
  rw [st_go] at h1
  have h2 := Move.lock (c := st h (upd L a { L a with pending := some i }) g i (.await d a x :: s) ans) (i := i) (d := d) (a := a) (x := x) (s := s)
    (by simp [st]) (by simp [st, hf])
  rw [st_go] at h2
  refine .step h1 (.step h2 ?_)
  have e : upd (upd L a { L a with pending := some i }) a
      { (upd L a { L a with pending := some i }) a with writer := some i, pending := none } = takenW L a i := by
    simp only [upd_upd, upd_self, takenW]
  simp only [st]
  rw [e]
  exact .refl _

theorem st_unlock {d : Bool} {a : Nat} (hf : L a = ⟨none, none, []⟩) :
    Move (st h (takenW L a i) g i (.release .write d a :: s) ans) i (st h L g i s ans) := by
  have := Move.unlock (c := st h (takenW L a i) g i (.release .write d a :: s) ans) (i := i) (d := d) (a := a) (s := s) (by simp [st])
  rw [st_go] at this
  have e : upd (takenW L a i) a { takenW L a i a with writer := none } = L := by
    simp only [takenW, upd_upd, upd_self]
    have : { L a with writer := none, pending := none } = L a := by rw [hf]
    rw [this]
    exact upd_eq L a
  simp only [st] at this
  rw [e] at this
  exact this

/-- `Set` and `Del` on a dataset behind free locks. -/
theorem write_alone (wf : WF h) {op : Op} {a t : Nat} {h' : Heap} (hw : Wraps h a t) (hmode : op.mode = .write)
    (hop : ∀ s ans, exec h ans (.call op t) s = .next h' ans s) :
    ∀ (L : Nat → Rw), (∀ b ≤ a, L b = ⟨none, none, []⟩) → ∀ (s : List Instr) (ans : Option Val),
      Alone i (st h L g i (.call op a :: s) ans) (st h' L g i s ans) := by
  induction hw with
  | plain hm' => intro L _ s ans; exact .one (st_run rfl (hop s ans))
  | @wrapper a b t ho _ ih =>
    intro L hL s ans
    have hba := (wf.wrapper a b ho).1
    have hfree := hL a (Nat.le_refl a)
    have h1 : Move (st h L g i (.call op a :: s) ans) i (st h L g i (.enter .write op.deferred a (.body op a) :: s) ans) :=
      st_run rfl (by simp only [exec, callStep, ho, hmode])
    have h2 := ih hop (takenW L a i) (by
      intro c hc
      have : c ≠ a := by omega
      simp only [takenW, upd_ne _ _ this]
      exact hL c (by omega)) (.release .write op.deferred a :: s) ans
    exact .step h1 (.trans (st_lock hfree) (.step (st_run rfl (by simp only [exec, ho])) (.trans h2 (.one (st_unlock hfree)))))

/-- A method of a thread-safe collection that does not look into the elements. -/
theorem change_alone {op : ColOp} {c : Nat} (hfree : L c = ⟨none, none, []⟩) {h' : Heap} {ans' : Option Val}
    (hop : ∀ s, exec h ans (.change op c) s = .next h' ans' s) (hread : (colMode op).1 = .read → h' = h) :
    Alone i (st h L g i (Call.col op c).code ans) (st h' L g i [] ans') := by
  simp only [Call.code]
  cases hm : (colMode op).1 with
  | read =>
    obtain rfl := hread hm
    exact .step (st_rlock (by rw [hfree]) (by rw [hfree])) (.step (st_run rfl (hop _)) (.one (st_runlock (d := (colMode op).2))))
  | write => exact .trans (st_lock hfree) (.step (st_run rfl (hop _)) (.one (st_unlock hfree)))

/-- The loop of `GetData`. -/
theorem scan_alone (wf : WF h) {c : Nat} {key : Str} (hL : Open L) :
    ∀ (n : Nat), n ≤ (elems h c).length → ∀ (s : List Instr) (ans : Option Val),
      Outcome h L g i (.scan c n key :: s) s ans (getDataL h key ((elems h c).take n).reverse) := by
  intro n
  induction n with
  | zero => intro _ s ans; exact .one (st_run rfl rfl)
  | succ n ih =>
    intro hn s ans
    have hlt : n < (elems h c).length := hn
    have htake : ((elems h c).take (n + 1)).reverse = (elems h c)[n] :: ((elems h c).take n).reverse := by
      rw [List.take_succ_eq_append_getElem hlt, List.reverse_append]
      rfl
    have hget : (elems h c)[n]? = some (elems h c)[n] := List.getElem?_eq_getElem hlt
    have h1 : Alone i (st h L g i (.scan c (n + 1) key :: s) ans) (st h (taken L c i) g i (.pick c n key :: .release .read false c :: s) ans) :=
      .step (st_run rfl rfl) (.one (st_rlock (hL c).1 (hL c).2))
    rw [htake]
    cases he : (elems h c)[n] with
    | none =>
      rw [he] at hget
      refine ⟨ans, .trans h1 (.step (st_run rfl (by simp only [exec, hget]; rfl)) (.step (st_runlock (d := false)) (.one (st_panic rfl rfl))))⟩
    | some e =>
      rw [he] at hget
      have h2 : Alone i (st h L g i (.scan c (n + 1) key :: s) ans) (st h L g i (.call (.get (split 62 key)) e :: .check c n key :: s) ans) :=
        .trans h1 (.step (st_run rfl (by simp only [exec, hget]; rfl)) (.one (st_runlock (d := false))))
      have hd : IsDataset h e := elems_isDataset wf (List.mem_of_getElem? hget)
      have h3 := get_alone (g := g) (i := i) wf _ (split 62 key) rfl (split_ne_nil _ _) e hd L hL (.check c n key :: s) ans
      simp only [getDataL, Dataset.get]
      cases hr : getSegs h e (split 62 key) with
      | ok v =>
        rw [hr] at h3
        have h4 := Alone.trans (i := i) h2 h3
        cases v with
        | some v => exact .trans h4 (.one (st_run rfl rfl))
        | none => exact .of_alone (.trans h4 (.one (st_run rfl rfl))) (ih (by omega) s none)
      | panic =>
        rw [hr] at h3
        obtain ⟨ans', h3⟩ := h3
        exact ⟨ans', .trans h2 h3⟩
      | diverge => rw [hr] at h3; exact h3.elim

/-- `GetData`. -/
theorem getData_alone (wf : WF h) {c : Nat} {key : Str} (hL : Open L) (s : List Instr) (ans : Option Val) :
    Outcome h L g i (.enter .read false c (.size c key) :: s) s ans (getData h c key) := by
  have h1 := scan_alone (g := g) (i := i) wf (c := c) (key := key) hL (elems h c).length (Nat.le_refl _) s ans
  rw [List.take_length] at h1
  exact .of_alone (.step (st_rlock (hL c).1 (hL c).2) (.step (st_run rfl rfl) (.one (st_runlock (d := false))))) h1

theorem st_self {c : Conf} (hst : (c.gor i).stack = s) : c = st c.heap c.locks c.gor i s (c.gor i).ans := by
  subst hst
  simp only [st]
  rw [upd_eq]

theorem alone_self {c c' : Conf} (hst : (c.gor i).stack = s) (h : Alone i (st c.heap c.locks c.gor i s (c.gor i).ans) c') : Alone i c c' := by
  rw [← st_self hst] at h
  exact h

/-- The end of a call is the only one. -/
theorem Ends.of_alone {c c' : Conf} (h1 : Alone i c c') (h2 : (c'.gor i).stack = []) : Ends i c c' := by
  refine ⟨h1, fun hb => hb h2, ?_⟩
  intro c'' h3 h4
  induction h1 with
  | refl c =>
    cases h3 with
    | refl => rfl
    | step hm _ => exact absurd h2 hm.busy
  | step hm _ ih =>
    cases h3 with
    | refl => exact absurd hm.busy h4
    | step hm' h3 =>
      rw [Move.unique hm' hm] at h3
      exact ih h2 h3

end Xcore.Nested
