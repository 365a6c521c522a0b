import Verif.EnvWrap.Model

/-! # Specification for C57 and C58 -/

namespace Machin.EnvWrap

/-- No command and no result is left over. -/
def Clean {E A O X : Type} (st : Sub E A O X) : Prop := (∀ i, st.cmds i = []) ∧ st.results = []

/-- The commands of a call, by environment. -/
def cmdFor {A : Type} (idxs : List Nat) (args : List (Cmd A)) (i : Nat) : Option (Cmd A) :=
  ((idxs.zip args).find? fun p => p.1 == i).map (·.2)

/-- The environments after each requested one has run its command once. -/
def after {E A O X : Type} (s : Sys E A O X) (idxs : List Nat) (args : List (Cmd A)) (envs : Nat → E) (i : Nat) : E :=
  match cmdFor idxs args i with
  | none => envs i
  | some c => (s.run (envs i) c).1

/-- An environment together with the answer to the question "has it terminated and not been reset since?". The second component is
only watched, never used. -/
def Sys.watched {E A O X : Type} (s : Sys E A O X) : Sys (E × Bool) A O X where
  reset e := match s.reset e.1 with
    | (e', .ok o) => ((e', false), .ok o)
    | (e', .error x) => ((e', e.2), .error x)
  step e a := match s.step e.1 a with
    | (e', .ok r) => ((e', e.2 || r.2), .ok r)
    | (e', .error x) => ((e', e.2), .error x)

/-- A call on a wrapper. -/
inductive Op (A : Type)
  | reset (idx : Option (List Nat))
  | step (action : List A) (idx : Option (List Nat))

/-- A call on the for-loop wrapper; only the exception is kept of the answer. -/
def Dummy.op {E A O X : Type} (s : Sys E A O X) (d : Dummy E) : Op A → Dummy E × Except (Fail X) Unit
  | .reset idx => let (d, r) := d.reset s idx; (d, r.map fun _ => ())
  | .step action idx => let (d, r) := d.step s action idx; (d, r.map fun _ => ())

/-- A history of calls in which no environment raised and no `step` names an environment twice. -/
inductive Dummy.Reach {E A O X : Type} (s : Sys E A O X) (d0 : Dummy E) : Dummy E → Prop
  | init : Dummy.Reach s d0 d0
  | op {d : Dummy E} (o : Op A) (h : Dummy.Reach s d0 d) (hx : ∀ x, (d.op s o).2 ≠ .error (.env x))
      (hd : ∀ action idx, o = .step action (some idx) → idx.Nodup) : Dummy.Reach s d0 (d.op s o).1

/-- Any history of calls. -/
inductive Dummy.ReachAny {E A O X : Type} (s : Sys E A O X) (d0 : Dummy E) : Dummy E → Prop
  | init : Dummy.ReachAny s d0 d0
  | op {d : Dummy E} (o : Op A) (h : Dummy.ReachAny s d0 d) : Dummy.ReachAny s d0 (d.op s o).1

end Machin.EnvWrap
