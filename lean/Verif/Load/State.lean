import Verif.Base.Dict
import Verif.Base.Err

/-! # Loading state dictionaries (`machin/utils/prepare.py` lines 40-49, 88-96, 113-118)

`Module.load_state_dict` of torch is modelled as it is documented and implemented for the default `strict=True`: every parameter with an entry of its shape is
copied in place (it stays on its device), and one `RuntimeError` about everything that did not fit is raised at the end. The special treatment of tensors
without dimensions and of modules with own loading hooks is left out. -/

namespace Machin.LoadState

variable {V : Type}

/-- A tensor: shape, values, device. -/
structure Ten (V : Type) where
  shape : List Nat
  val : V
  dev : Nat
  deriving DecidableEq, Repr

/-- `param.copy_(value)`. -/
def Ten.copyFrom (p q : Ten V) : Ten V := { p with val := q.val }

/-- What loading does with one parameter: it is copied if there is an entry of the same shape. -/
def loadOne (sd : PyDict String (Ten V)) (name : String) (p : Ten V) : Ten V :=
  match sd.get? name with
  | none => p
  | some q => if q.shape = p.shape then p.copyFrom q else p

/-- Whether a parameter could be loaded. -/
def fits (sd : PyDict String (Ten V)) (name : String) (p : Ten V) : Bool :=
  match sd.get? name with
  | none => false
  | some q => decide (q.shape = p.shape)

/-- `model.load_state_dict(state_dict)` (called at prepare.py:49). -/
def loadStateDict (m sd : PyDict String (Ten V)) : PyDict String (Ten V) × Except Err Unit :=
  (m.map fun e => (e.1, loadOne sd e.1 e.2),
   if m.all (fun e => fits sd e.1 e.2) && sd.all (fun e => m.mem e.1) then .ok () else .error .runtime)

/-- The loop of `prep_load_state_dict` (prepare.py:47-48): the result of `.to` is dropped, so what remains is the lookup of every name. -/
def touch (sd : PyDict String (Ten V)) : List String → Except Err Unit
  | [] => .ok ()
  | n :: ns => if sd.mem n then touch sd ns else .error .key

/-- `prep_load_state_dict(model, state_dict)` (prepare.py:40-49). -/
def stateLoad (m sd : PyDict String (Ten V)) : PyDict String (Ten V) × Except Err Unit :=
  match touch sd m.keys with
  | .error e => (m, .error e)
  | .ok () => loadStateDict m sd

/-- The loops over the models (prepare.py:90-96, 114-118): models paired with the contents of their files; the first exception ends the loop. -/
def stateLoadAll : List (PyDict String (Ten V) × PyDict String (Ten V)) → List (PyDict String (Ten V)) × Except Err Unit
  | [] => ([], .ok ())
  | (m, sd) :: l =>
    match stateLoad m sd with
    | (m', .error e) => (m' :: l.map (·.1), .error e)
    | (m', .ok ()) => (m' :: (stateLoadAll l).1, (stateLoadAll l).2)

end Machin.LoadState
