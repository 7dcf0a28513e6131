import Verif.Base.Str
import Verif.Model.Lock

/-!
# Methods that are one critical section, access by access

A method is a list of accesses to the shared data, executed between acquisition and release of the lock, and an answer computed from the
method's local variable. It has no loops; a loop that only reads is one access.
-/

namespace Xcore.Lock

/-- One access: what it does to the shared data and to the local variable of the method; it can panic or not end. -/
abbrev Access (σ ρ : Type) := σ → ρ → Res (σ × ρ)

/-- A method: how it takes the lock, whether the unlock is deferred, its accesses, its local variable at the start, and the answer. -/
structure Method (σ ρ Ω : Type) where
  mode : Mode
  deferred : Bool
  code : List (Access σ ρ)
  start : ρ
  answer : ρ → Ω

/-- A goroutine: the next access of the running method, its local variable, and the answers received so far (`none` for a method that
panicked). -/
structure Frame (ρ Ω : Type) where
  pc : Nat
  reg : ρ
  outs : List (Option Ω)

variable {σ ρ Ω : Type}

/-- The critical section of a method. An access that does not end leaves the goroutine inside. -/
def Method.section (m : Method σ ρ Ω) : Section σ (Frame ρ Ω) where
  mode := m.mode
  deferred := m.deferred
  enter l := { l with pc := 0, reg := m.start }
  abort l := { l with outs := l.outs ++ [none] }
  step s l := match m.code[l.pc]? with
    | none => .done { l with outs := l.outs ++ [some (m.answer l.reg)] }
    | some f => match f s l.reg with
      | .ok r => .next r.1 { l with pc := l.pc + 1, reg := r.2 }
      | .panic => .panic
      | .diverge => .next s l

/-- The accesses one after the other, without interruption: the shared data afterwards and the local variable. -/
def runCode : List (Access σ ρ) → σ → ρ → σ × Res ρ
  | [], s, r => (s, .ok r)
  | f :: fs, s, r => match f s r with
    | .ok q => runCode fs q.1 q.2
    | .panic => (s, .panic)
    | .diverge => (s, .diverge)

/-- The method executed alone: the shared data afterwards and the answer. -/
def Method.alone (m : Method σ ρ Ω) (s : σ) : σ × Res Ω :=
  let r := runCode m.code s m.start
  (r.1, r.2.map m.answer)

end Xcore.Lock
