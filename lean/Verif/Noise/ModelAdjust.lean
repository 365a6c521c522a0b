import Verif.Noise.Model

/-! # The adjustment of parameter noise (`perturb_model`, machin/frame/noise/param_space_noise.py lines 132-293)

What the hooks do to parameters is modelled in `Verif.Noise.Model`; here are the deviation of the noise and the outputs it is adapted to. -/

namespace Machin.Noise

/-- `tmp_action` and `param_noise_spec` (param_space_noise.py:243-246). -/
structure Watch (K Y : Type) where
  noisy : Option Y
  clean : Option Y
  spec : Adaptive K

/-- `AdaptiveParamNoise(desired_action_stddev=…)` with its defaults (param_space_noise.py:12-16, 246), which are parameters here. -/
def Watch.start {K Y : Type} (initial desired coeff : K) : Watch K Y := ⟨none, none, ⟨initial, desired, coeff, initial⟩⟩

/-- `param_noise_gen` and `param_noise_custom_gen_wrapper` (param_space_noise.py:248-257): a draw of the generator times the deviation, or what the function
of the user gives for the deviation. -/
def Watch.noise {K Y : Type} [Mul K] (w : Watch K Y) (custom : Option (K → K)) (draw : K) : K :=
  match custom with
  | some f => f w.spec.current
  | none => draw * w.spec.current

/-- `perturb_adjust_hook` (param_space_noise.py:262-277), run after a forward pass with output `y`; `on` is the state of the switch. Also returned is the
pair that was compared. -/
def Watch.adjust {K Y : Type} [Field K] [LinearOrder K] (dist : Y → Y → K) (w : Watch K Y) (on : Bool) (y : Y) : Watch K Y × Option (Y × Y) :=
  let w := if on then { w with noisy := some y } else { w with clean := some y }
  match w.noisy, w.clean with
  | some a, some b => (⟨none, none, w.spec.adapt (dist a b)⟩, some (a, b))
  | _, _ => (w, none)

/-- A sequence of forward passes: the state at the end, the pairs compared, and the deviation that every pass met. -/
def Watch.run {K Y : Type} [Field K] [LinearOrder K] (dist : Y → Y → K) (w : Watch K Y) : List (Bool × Y) → Watch K Y × List (Y × Y) × List K
  | [] => (w, [], [])
  | (on, y) :: l =>
    let r := w.adjust dist on y
    let s := Watch.run dist r.1 l
    (s.1, r.2.toList ++ s.2.1, w.spec.current :: s.2.2)

end Machin.Noise
