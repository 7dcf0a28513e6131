import Verif.Model.Method

/-! # Histories of calls made one after the other, and what it means that calls are atomic -/

namespace Xcore.Lock

variable {σ ρ Ω Op : Type}

/-- The answer of a call: none if it panicked. -/
def answer : Res Ω → Option Ω
  | .ok o => some o
  | _ => none

/-- Calls made one after the other: the data afterwards and the answers. `seq op s` is what one call does. -/
def runCalls (seq : Op → σ → σ × Res Ω) : σ → List Op → σ × List (Option Ω)
  | s, [] => (s, [])
  | s, op :: ops =>
    let r := seq op s
    let q := runCalls seq r.1 ops
    (q.1, answer r.2 :: q.2)

/-- The answers goroutine `i` gets when the calls of a history are made one after the other. -/
def answersTo (seq : Op → σ → σ × Res Ω) (s : σ) (hist : List (Nat × Op)) (i : Nat) : List (Option Ω) :=
  (((hist.map Prod.fst).zip (runCalls seq s (hist.map Prod.snd)).2).filter fun p => p.1 = i).map Prod.snd

/-- Goroutines calling methods of one object: the first configuration. -/
def callers (meth : Op → Method σ ρ Ω) (r0 : ρ) (s0 : σ) (calls : Nat → List Op) : Config σ (Frame ρ Ω) :=
  init s0 (fun _ => ⟨0, r0, []⟩) fun i => (calls i).map fun op => (meth op).section

/-- What it means that the calls of an object are atomic: there is an order of the calls that have ended, the order in which they ended, in
which (1) the calls of every goroutine are its calls in the order in which it makes them, without the one under way and those to come; (2) every goroutine
outside of a call has received the answers it would have received had the calls been made one after the other in this order; (3) whenever
nobody is inside a call that writes, the data is the one these calls leave. -/
def Atomic (meth : Op → Method σ ρ Ω) (seq : Op → σ → σ × Res Ω) (s0 : σ) (calls : Nat → List Op) (c : Config σ (Frame ρ Ω)) : Prop :=
  ∃ hist : List (Nat × Op), c.log = hist.map (fun p => (p.1, (meth p.2).section)) ∧
    (∀ i, (hist.filter fun p => p.1 = i).map Prod.snd = (calls i).take ((calls i).length - (c.threads i).todo.length - (c.threads i).cur.toList.length)) ∧
    (∀ i, (c.threads i).cur = none → (c.threads i).loc.outs = answersTo seq s0 hist i) ∧
    ((∀ i sec, (c.threads i).cur = some sec → sec.mode = .read) → c.shared = (runCalls seq s0 (hist.map Prod.snd)).1)

end Xcore.Lock
