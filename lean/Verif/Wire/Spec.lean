import Verif.Wire.Model

/-! # What is expected of messages with tensors and of pools -/

namespace Machin.Wire

variable {D : Type} [Inhabited D]

/-- Two lists of objects have the same pattern of identity: equal at two positions in one exactly if in the other. -/
def SamePattern (xs ys : List Nat) : Prop :=
  xs.length = ys.length ∧
    ∀ (i j a b a' b' : Nat), xs[i]? = some a → xs[j]? = some b → ys[i]? = some a' → ys[j]? = some b' → (a = b ↔ a' = b')

/-- No tensor that exists in `m` has another content in `m'`. -/
def Untouched (m m' : Mem D) : Prop := ∀ o, o < m.objs.length → m'.data o = m.data o

/-- The pools whose workers are processes. -/
def Kind.process : Kind → Bool
  | .thread => false
  | .ctxThread => false
  | _ => true

/-- How the documentation says that workers are started: threads in thread pools, else by fork to share cpu tensors and by spawn otherwise, as daemons if asked
for (pool.py:924-931, 939-945). -/
def askedStart (k : Kind) (s : Settings) : Start × Bool :=
  (if !k.process then .thread else if !s.isCopy && s.shareMethod = some "cpu" then .fork else .spawn, s.isDaemon)

/-- Settings with which a pool can work: at least one worker, as many contexts as workers, a callable initializer, a positive number of tasks per worker, and a
way of sharing if tensors are not copied. -/
structure Sensible (k : Kind) (s : Settings) : Prop where
  processes : ∀ n, s.processes = some n → 1 ≤ n
  given : k = .ctx ∨ k = .ctxThread → s.processes ≠ none
  initializer : s.initializer ≠ some false
  contexts : k = .ctx ∨ k = .ctxThread → ∀ n, s.contexts = some n → s.processes = some n
  maxtasks : k ≠ .ctxThread → ∀ n, s.maxtasks = some n → 1 ≤ n
  share : k ≠ .ctxThread → s.isCopy = false → s.shareMethod = some "cpu" ∨ s.shareMethod = some "cuda"

end Machin.Wire
