import Verif.Ars.Model
import Verif.Algo.Value
import Mathlib.Data.List.Sort
import Std.Data.String.ToInt
import Std.Data.String.ToNat
import Mathlib.Analysis.Real.Sqrt

/-!
# Model of ARS: perturbed actors, stored rewards, acting, and the update of the actor

`machin/frame/algorithms/ars.py` 437-700. Parameters are lists of numbers with their names, in the order of `named_parameters` (names are distinct).
Numbers are elements of an ordered field; rounding is not modelled. The noise array and the draws of the samplers are given.
-/

namespace Machin.Ars

variable {K : Type}

/-- A network: its parameters by name, each one flattened. -/
abbrev Params (K : Type) := List (String × List K)

/-- What a process keeps for a rollout: the entry `delta_idx[r]`, the two networks `actor_with_delta[(r, True)]` and `actor_with_delta[(r, False)]`,
and the two lists of `reward[r]` (ars.py:345-362). -/
structure Entry (K : Type) where
  r : Nat
  idx : List (String × Nat)
  pos : Params K
  neg : Params K
  posR : List K
  negR : List K
  deriving DecidableEq

/-- The body of the loop of `_generate_parameter` and `_reset_reward_dict` for rollout `r` (ars.py:668-700); `draw name` are the draws of the sampler of
the parameter. -/
def perturb [Add K] [Sub K] (noise : List K) (θ : Params K) (draw : String → Nat → Nat) (r : Nat) : Except Err (Entry K) :=
  match Algo.mapE (fun p : String × List K => sample noise (draw p.1) p.2.length) θ with
  | .error e => .error e
  | .ok ss => .ok
    { r := r
      idx := θ.zipWith (fun p s => (p.1, s.1)) ss
      pos := θ.zipWith (fun p s => (p.1, p.2.zipWith (· + ·) s.2)) ss
      neg := θ.zipWith (fun p s => (p.1, p.2.zipWith (· - ·) s.2)) ss
      posR := [], negR := [] }

/-- `_generate_parameter` and `_reset_reward_dict` (ars.py:668-700) for the rollouts of one process. -/
def generate [Add K] [Sub K] (noise : List K) (θ : Params K) (draw : Nat → String → Nat → Nat) (rollouts : List Nat) : Except Err (List (Entry K)) :=
  Algo.mapE (fun r => perturb noise θ (draw r) r) rollouts

/-- `get_actor_types` (ars.py:435-445): the keys of `actor_with_delta` in the order of insertion (ars.py:699-700). -/
def actorTypes (w : List (Entry K)) : List String := w.flatMap fun e => ["negative_" ++ toString e.r, "positive_" ++ toString e.r]

/-- The pieces of `str.split("_")`. -/
def pieces : List Char → List Char → List (List Char)
  | cur, [] => [cur.reverse]
  | cur, c :: cs => if c = '_' then cur.reverse :: pieces [] cs else pieces (c :: cur) cs

/-- `int(actor_type.split("_")[1])` and `actor_type[0] == "p"`, or the `ValueError` for other types (ars.py:472-482, 494-503). `int` is modelled for
decimal numbers with or without a minus sign. -/
def parseType (s : String) : Except Err (Int × Bool) :=
  if "positive_".toList.isPrefixOf s.toList || "negative_".toList.isPrefixOf s.toList then
    match (String.ofList ((pieces [] s.toList).getD 1 [])).toInt? with
    | none => .error .value
    | some i => .ok (i, s.toList.head? == some 'p')
  else .error .value

/-- The network that `act` calls (ars.py:470-482). -/
def network (θ : Params K) (w : List (Entry K)) (type : String) : Except Err (Params K) :=
  if type = "original" then .ok θ
  else match parseType type with
    | .error e => .error e
    | .ok (i, positive) =>
      match w.find? fun e => decide ((e.r : Int) = i) with
      | none => .error .key
      | some e => .ok (if positive then e.pos else e.neg)

/-- `store_reward` (ars.py:484-503). -/
def storeReward (w : List (Entry K)) (reward : K) (type : String) : Except Err (List (Entry K)) :=
  match parseType type with
  | .error e => .error e
  | .ok (i, positive) =>
    match w.find? fun e => decide ((e.r : Int) = i) with
    | none => .error .key
    | some _ => .ok (w.map fun e =>
      if (e.r : Int) = i then if positive then { e with posR := e.posR ++ [reward] } else { e with negR := e.negR ++ [reward] } else e)

/-- A member's filters, by the key of the state, and a state. Values have one component. -/
abbrev Filters := List (String × Filter)

/-- The loop over the state (ars.py:461-469): filters are made on first use, and the entry of the given dictionary is replaced. `norm f x` stands for
the normalised value (ars.py:234-236). -/
def normalizeState (norm : Filter → ℚ → ℚ) (fs : Filters) : List (String × ℚ) → Filters × List (String × ℚ)
  | [] => (fs, [])
  | (k, v) :: rest =>
    let f := ((fs.lookup k).getD Filter.new).observe v
    let r := normalizeState norm ((k, f) :: fs.filter fun q => q.1 != k) rest
    (r.1, (k, norm f v) :: r.2)

/-- `act` (ars.py:447-482): the filters and the dictionary of the caller after the call, and the network that was called together with the state it was
called with. -/
def actOn (norm : Filter → ℚ → ℚ) (normalize : Bool) (θ : Params K) (w : List (Entry K)) (fs : Filters) (state : List (String × ℚ)) (type : String) :
    Filters × List (String × ℚ) × Except Err (Params K × List (String × ℚ)) :=
  let r := if normalize then normalizeState norm fs state else (fs, state)
  (r.1, r.2, match network θ w type with
    | .error e => .error e
    | .ok net => .ok (net, r.2))

/-! ## The update -/

/-- `np.mean`. -/
def average [Field K] (l : List K) : K := l.sum / (l.length : K)

/-- The entries of `_get_reward_and_delta` for one rollout (ars.py:610-623): average reward of the positive and of the negative network, noise indexes. -/
def result [Field K] (e : Entry K) : Except Err (K × K × List (String × Nat)) :=
  if e.negR.isEmpty || e.posR.isEmpty then .error .assertion else .ok (average e.posR, average e.negR, e.idx)

/-- What the manager collects from all members, in the order of the group (ars.py:531-541). -/
def gather [Field K] (members : List (List (Entry K))) : Except Err (List (K × K × List (String × Nat))) :=
  Algo.mapE result members.flatten

variable [Field K] [LinearOrder K]

/-- `np.percentile(xs, 100 * num / den)` with linear interpolation, for a list with entries. -/
def percentile (xs : List K) (num den : Nat) : K :=
  let s := xs.insertionSort (· ≤ ·)
  let v := num * (xs.length - 1)
  let a := s.getD (v / den) 0
  let b := s.getD (min (v / den + 1) (xs.length - 1)) 0
  a + (b - a) * (((v % den : Nat) : K) / (den : K))

/-- The positions of the used rollouts (ars.py:544-556). -/
def used (rolloutNum usedNum : Nat) (maxRewards : List K) : List Nat :=
  (List.range maxRewards.length).filter fun i => decide (percentile maxRewards (rolloutNum - usedNum) rolloutNum ≤ maxRewards.getD i 0)

/-- The rewards of the used rollouts are divided by their standard deviation unless that is close to 0; then their differences are taken
(ars.py:560-569). `std` and `close` stand for `np.std` and `np.isclose(_, 0.0)`. -/
def differences (std : List K → K) (close : K → Bool) (rs : List (K × K)) : List K :=
  let var := std (rs.map (·.1) ++ rs.map (·.2))
  if close var then rs.map fun r => r.2 - r.1 else rs.map fun r => r.2 / var - r.1 / var

/-- `_cal_gradient` for one parameter (ars.py:625-638). -/
def gradient (noise : List K) (name : String) (size : Nat) (diffs : List K) (idxs : List (List (String × Nat))) : Except Err (List K) :=
  match Algo.mapE (fun u : K × List (String × Nat) => match u.2.lookup name with
    | none => .error .key
    | some i => .ok ((get noise i size).map (· * u.1))) (diffs.zip idxs) with
  | .error e => .error e
  | .ok [] => .error .runtime
  | .ok deltas => .ok ((List.range size).map fun p => (deltas.map fun d => d.getD p 0).sum / (deltas.length : K))

/-- The update of the manager (ars.py:530-574), with the optimizer `t.optim.SGD`; a parameter is given the gradient computed for it. -/
def managerUpdate (std : List K → K) (close : K → Bool) (lr : K) (noise : List K) (rolloutNum usedNum : Nat) (θ : Params K)
    (members : List (List (Entry K))) : Except Err (Params K) :=
  match gather members with
  | .error e => .error e
  | .ok rs =>
    let sel := (used rolloutNum usedNum (rs.map fun r => max r.1 r.2.1)).filterMap fun i => rs[i]?
    let diffs := differences std close (sel.map fun r => (r.1, r.2.1))
    Algo.mapE (fun p : String × List K => match gradient noise p.1 p.2.length diffs (sel.map (·.2.2)) with
      | .error e => .error e
      | .ok g => .ok (p.1, p.2.zipWith (fun x d => x - lr * d) g)) θ

end Machin.Ars

namespace Machin.Ars

/-- `np.std` (ars.py:560): the root of the mean squared distance from the mean. -/
noncomputable def npStd (xs : List ℝ) : ℝ := Real.sqrt (average (xs.map fun x => (x - average xs) * (x - average xs)))

/-- `np.isclose(var, 0.0)` (ars.py:561). -/
noncomputable def npClose (x : ℝ) : Bool := decide (|x| ≤ 1 / 100000000)

end Machin.Ars
