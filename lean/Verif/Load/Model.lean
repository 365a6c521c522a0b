import Verif.Base.Dict
import Verif.Base.Err

/-! # Saving and loading models (`machin/utils/prepare.py` lines 52-118, `machin/frame/algorithms/base.py` lines 94-158)

A directory maps file names (lists of characters) to saved parameters. Not modelled: `load_state_dict` failing on
other shapes, logging. -/

namespace Machin.Load

abbrev Name := List Char

/-- A directory: file names and contents. -/
abbrev Dir (P : Type) := PyDict Name P

/-- `".pt"`. -/
def ext : Name := ['.', 'p', 't']

/-- Characters of the class `[a-zA-Z0-9_-]` in the regular expression (prepare.py:81). -/
def nameChar (c : Char) : Bool := c.isAlpha || c.isDigit || c = '_' || c = '-'

/-- `str(v)` for a version. -/
def versionStr (v : Int) : Name := if v < 0 then '-' :: Nat.toDigits 10 v.natAbs else Nat.toDigits 10 v.natAbs

/-- `f"{net_name}_{version}.pt"` (prepare.py:96, 116; base.py:150, 158). -/
def fileName (name suffix : Name) : Name := name ++ '_' :: suffix ++ ext

/-- `re.fullmatch("([a-zA-Z0-9_-]+)_([0-9]+)\\.pt$", m)`, with the two groups (prepare.py:81-84). Read from the right: the
extension, the digits, the underscore, the name. `int()` accepts leading zeros. -/
def parseFile (f : Name) : Option (Name × Nat) :=
  if f.reverse.take 3 = ext.reverse then
    let r := f.reverse.drop 3
    let ds := r.takeWhile Char.isDigit
    let rest := r.dropWhile Char.isDigit
    if ds ≠ [] ∧ rest.take 1 = ['_'] ∧ rest.drop 1 ≠ [] ∧ (rest.drop 1).all nameChar then
      some ((rest.drop 1).reverse, Nat.ofDigitChars 10 ds.reverse 0)
    else none
  else none

variable {P : Type}

/-- `version_map[name]` after the scan of the directory (prepare.py:75-86). -/
def versions (dir : Dir P) (name : Name) : List Nat :=
  dir.keys.filterMap (fun f => match parseFile f with
    | some (n, v) => if n = name then some v else none
    | none => none)

/-- The loop that loads one version of all models (prepare.py:91-97, 114-118): what was loaded, and the error of a missing file,
which stops the loop. -/
def loadAll (dir : Dir P) (version : Nat) : List Name → List (Name × P) × Option Err
  | [] => ([], none)
  | n :: ns =>
    match dir.get? (fileName n (versionStr version)) with
    | none => ([], some (.other 2))                        -- FileNotFoundError
    | some c =>
      let (rest, e) := loadAll dir version ns
      ((n, c) :: rest, e)

/-- `version in version_map[name]`. -/
def hasVersion (dir : Dir P) (version : Int) (name : Name) : Bool :=
  (versions dir name).any (fun v => (v : Int) = version)

/-- `set.intersection(*version_map.values())` (prepare.py:107). -/
def common (dir : Dir P) : List Name → List Nat
  | [] => []
  | n :: ns => (versions dir n).filter (fun v => ns.all (fun m => (versions dir m).contains v))

/-- `max(common)` of a nonempty set (prepare.py:113). -/
def maxVersion : List Nat → Nat
  | [] => 0
  | v :: vs => max v (maxVersion vs)

/-- "Begin auto find" (prepare.py:105-118). -/
def autoFind (dir : Dir P) (names : List Name) (quiet : Bool) : List (Name × P) × Option Err :=
  match names with
  | [] => ([], some .type)                                 -- `set.intersection()` without arguments
  | _ =>
    if (common dir names).isEmpty then ([], if quiet then none else some .runtime)
    else loadAll dir (maxVersion (common dir names)) names

/-- `prep_load_model(model_dir, model_map, version, quiet)` (prepare.py:52-118): the parameters loaded into each model, and the
exception. The directory exists. -/
def prepLoad (dir : Dir P) (names : List Name) (version : Option Int) (quiet : Bool) : List (Name × P) × Option Err :=
  match version with
  | some v =>
    if names.all (hasVersion dir v) then loadAll dir v.natAbs names
    else autoFind dir names quiet
  | none => autoFind dir names quiet

/-- The name in the directory of a restorable module (base.py:112-120, 147-158). -/
def savedName (networkMap : PyDict Name Name) (r : Name) : Name := (networkMap.get? r).getD r

/-- `"default"` (base.py:142). -/
def nDefault : Name := ['d', 'e', 'f', 'a', 'u', 'l', 't']

/-- `Framework.save` (base.py:124-158); `models` are the restorable modules with their parameters. -/
def save (dir : Dir P) (models : List (Name × P)) (networkMap : PyDict Name Name) (version : Int) : Dir P :=
  let suffix := if version = -1 then nDefault else versionStr version
  models.foldl (fun d rp => d.set (fileName (savedName networkMap rp.1) suffix) rp.2) dir

/-- `Framework.load` (base.py:94-122): which parameters are put into which module. `restore_map` is a dictionary from saved names
to modules: two modules with the same saved name leave one entry, with the last module. -/
def load (dir : Dir P) (restorables : List Name) (networkMap : PyDict Name Name) (version : Int) :
    List (Name × P) × Option Err :=
  let restoreMap : PyDict Name Name := restorables.foldl (fun d r => d.set (savedName networkMap r) r) []
  let (loaded, e) := prepLoad dir restoreMap.keys (some version) false
  (loaded.filterMap (fun nc => (restoreMap.get? nc.1).map (fun r => (r, nc.2))), e)

end Machin.Load
