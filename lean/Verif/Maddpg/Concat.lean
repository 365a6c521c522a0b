import Verif.Batch.Model

/-!
# Model of the joint states and actions of MADDPG

`action_concat_function`, `state_concat_function` (`machin/frame/algorithms/maddpg.py` lines 972-991, the same text) and
`SHMBuffer.make_tensor_from_batch` (17-44). A tensor of two dimensions is the list of its rows; devices are left out.
-/

namespace Machin.Maddpg

/-- `t.cat(l, dim=1)` (maddpg.py:980, 990): the numbers of rows have to agree. The list is not empty. -/
def catCols {K : Type} : List (List (List K)) → Except Err (List (List K))
  | [] => .error .runtime
  | [x] => .ok x
  | x :: y :: l =>
    match catCols (y :: l) with
    | .error e => .error e
    | .ok r => if x.length = r.length then .ok (x.zipWith (· ++ ·) r) else .error .runtime

/-- `[act[k].cpu() for act in actions]` (maddpg.py:980, 990). -/
def entries {K : Type} (k : String) : List (List (String × K)) → Except Err (List K)
  | [] => .ok []
  | d :: ds =>
    match d.lookup k with
    | none => .error .key
    | some x =>
      match entries k ds with
      | .error e => .error e
      | .ok xs => .ok (x :: xs)

/-- The loop over the keys of the first dictionary (maddpg.py:977-981). -/
def concatKeys {K : Type} (ds : List (List (String × List (List K)))) : List String → Except Err (List (String × List (List K)))
  | [] => .ok []
  | k :: ks =>
    match entries k ds with
    | .error e => .error e
    | .ok xs =>
      match catCols xs with
      | .error e => .error e
      | .ok x =>
        match concatKeys ds ks with
        | .error e => .error e
        | .ok r => .ok ((k, x) :: r)

/-- `action_concat_function` and `state_concat_function` (maddpg.py:972-991). -/
def concatAll {K : Type} (ds : List (List (String × List (List K)))) : Except Err (List (String × List (List K))) :=
  match ds with
  | [] => .error .index
  | d :: _ => concatKeys ds (d.map (·.1))

/-- `t.is_tensor(it)` (maddpg.py:40). -/
def isTensor {α : Type} : Option (Batch.Item α) → Bool
  | some (.tensor _) => true
  | _ => false

/-- `SHMBuffer.make_tensor_from_batch` (maddpg.py:17-44): the result, and what is moved to shared memory: the result (`none`), or the tensors with these
numbers in the batch. -/
def makeShared {α : Type} (batch : List (Batch.Item α)) (concatenate : Bool) : Except Err (Batch.Out α × Option (List Nat)) :=
  match Batch.makeTensor batch concatenate with
  | .error e => .error e
  | .ok (.tensor x) => .ok (.tensor x, none)
  | .ok (.list l) => .ok (.list l, some ((List.range l.length).filter fun i => isTensor l[i]?))

end Machin.Maddpg
