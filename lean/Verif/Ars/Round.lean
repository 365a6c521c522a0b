import Verif.Ars.Model

/-!
# Model of the running statistics and the state filter of ARS in floating point

`machin/frame/algorithms/ars.py`, `RunningStat` and `MeanStdFilter.filter`. The tensors have the type `float64`. Every
operation on tensors is followed by the rounding `fl`; python integers that meet a tensor are below `2 ^ 53` and kept by
it. Overflow is left out. One component is modelled, as in `Verif.Ars.Model`, and `none` stands for `nan`.
-/

namespace Machin.Ars

/-- `RunningStat.push` (ars.py:58-75). -/
def Stat.pushF (fl : ℚ → ℚ) (s : Stat) (x : ℚ) : Stat :=
  let nOld := s.n
  let n := s.n + 1
  if n = 1 then { s with n := n, M := some x }
  else
    let delta := s.M.map fun m => fl (x - m)
    { n := n
      M := lift2 (fun m d => fl (m + fl (d / n))) s.M delta
      S := lift2 (fun v d => fl (v + fl (fl (fl (d * d) * nOld) / n))) s.S delta }

/-- `RunningStat.update` (ars.py:77-100). -/
def Stat.updateF (fl : ℚ → ℚ) (s o : Stat) : Stat :=
  let n1 := s.n
  let n2 := o.n
  let n := n1 + n2
  if n = 0 then ⟨0, none, none⟩
  else
    let delta := lift2 (fun a b => fl (a - b)) s.M o.M
    let delta2 := delta.map fun d => fl (d * d)
    { n := n
      M := lift2 (fun a b => fl (fl (fl (n1 * a) + fl (n2 * b)) / n)) s.M o.M
      S := lift2 (fun ab d => fl (ab + fl (fl (fl (d * n1) * n2) / n))) (lift2 (fun a b => fl (a + b)) s.S o.S) delta2 }

/-- `RunningStat.var` (ars.py:116-121). -/
def Stat.varF (fl : ℚ → ℚ) (s : Stat) : Option ℚ :=
  if s.n > 1 then s.S.map fun v => fl (v / ((s.n : ℚ) - 1)) else s.M.map fun m => fl (m * m)

/-- The replacement of small deviations by infinity in `apply_stats` (ars.py:208-211); `none` stands for infinity. -/
def scaleF (fl : ℚ → ℚ) (std : ℚ) : Option ℚ := if std < fl (1 / 10000000) then none else some std

/-- The value returned by `filter` (ars.py:234-236); a finite number divided by infinity is 0. -/
def normF (fl : ℚ → ℚ) (mean : ℚ) (std : Option ℚ) (x : ℚ) : ℚ :=
  match std with
  | none => 0
  | some s => fl (fl (x - mean) / fl (s + fl (1 / 100000000)))

/-- How a `RunningStat` came about: created, one sample pushed, or another one merged into it. -/
inductive Hist
  | new
  | push (h : Hist) (x : ℚ)
  | merge (h g : Hist)

/-- The `RunningStat` after these calls (ars.py:30-100). -/
def Hist.run (fl : ℚ → ℚ) : Hist → Stat
  | .new => Stat.new
  | .push h x => (h.run fl).pushF fl x
  | .merge h g => (h.run fl).updateF fl (g.run fl)

end Machin.Ars
