import Verif.Base.Err

/-!
# Directories of trials (`machin/utils/prepare.py` lines 12-37, `machin/utils/save_env.py`)

A file system is a list of resolved paths (lists of names, from the root directory, which is always there) with what is found there. Paths do not lead through
symbolic links. Errors of the operating system are `Err.other errno`.
-/

namespace Machin.Dirs

abbrev Path := List String

/-- What is found at a path; `link alive`: a symbolic link whose target exists or not; `special`: a socket, pipe or device. -/
inductive Kind
  | file (content : Nat)
  | dir
  | link (alive : Bool)
  | special
deriving DecidableEq, Repr

abbrev FS := List (Path × Kind)

/-- What is at a path (`os.lstat`). -/
def get : FS → Path → Option Kind
  | [], _ => none
  | (p, k) :: fs, q => if p = q then some k else get fs q

/-- `os.path.isdir` for a path that is no link. -/
def isDir (fs : FS) (p : Path) : Bool := p = [] || get fs p = some .dir

/-- `os.path.exists`: links are followed. -/
def isThere (fs : FS) (p : Path) : Bool :=
  p = [] || match get fs p with
    | none => false
    | some (.link alive) => alive
    | some _ => true

/-- `os.listdir`. -/
def listdir (fs : FS) (p : Path) : Except Err (List String) :=
  if isDir fs p then .ok ((fs.filter fun e => e.1 != [] && e.1.dropLast == p).map fun e => e.1.getLastD "")
  else if (get fs p).isSome then .error (.other 20) else .error (.other 2)

/-- `os.unlink`. -/
def unlink (fs : FS) (p : Path) : FS := fs.filter fun e => e.1 != p

/-- `shutil.rmtree`. -/
def rmtree (fs : FS) (p : Path) : FS := fs.filter fun e => !p.isPrefixOf e.1

/-- The inner loop of `prep_clear_dirs` (prepare.py:18-24). -/
def clearNames (p : Path) : List String → FS → FS
  | [], fs => fs
  | f :: names, fs =>
    match get fs (p ++ [f]) with
    | some (.file _) => clearNames p names (unlink fs (p ++ [f]))
    | some (.link _) => clearNames p names (unlink fs (p ++ [f]))
    | some .dir => clearNames p names (rmtree fs (p ++ [f]))
    | some .special => clearNames p names fs
    | none => clearNames p names fs

/-- `prep_clear_dirs` (prepare.py:12-24). -/
def clearDirs : List Path → FS → FS × Except Err Unit
  | [], fs => (fs, .ok ())
  | p :: ps, fs =>
    match listdir fs p with
    | .error e => (fs, .error e)
    | .ok names => clearDirs ps (clearNames p names fs)

/-- `os.mkdir`. -/
def mkdir (fs : FS) (p : Path) (c : String) : FS × Except Err Unit :=
  if (get fs (p ++ [c])).isSome then (fs, .error (.other 17))
  else if isDir fs p then (fs ++ [(p ++ [c], .dir)], .ok ())
  else if (get fs p).isSome then (fs, .error (.other 20))
  else (fs, .error (.other 2))

/-- `os.makedirs` for a path given from its last name to the first: makes the parent directory first if it is not there (an error 17 of that call is
ignored). -/
def makedirsRev : List String → FS → FS × Except Err Unit
  | [], fs => (fs, .error (.other 17))
  | c :: rest, fs =>
    if isThere fs rest.reverse then mkdir fs rest.reverse c
    else
      match makedirsRev rest fs with
      | (fs', .ok ()) => mkdir fs' rest.reverse c
      | (fs', .error (.other 17)) => mkdir fs' rest.reverse c
      | (fs', .error e) => (fs', .error e)

/-- `os.makedirs`. -/
def makedirs (p : Path) (fs : FS) : FS × Except Err Unit := makedirsRev p.reverse fs

/-- `prep_create_dirs` (prepare.py:27-37). -/
def createDirs : List Path → FS → FS × Except Err Unit
  | [], fs => (fs, .ok ())
  | p :: ps, fs =>
    if isThere fs p then createDirs ps fs
    else
      match makedirs p fs with
      | (fs', .ok ()) => createDirs ps fs'
      | (fs', .error e) => (fs', .error e)

/-- An argument of `os.path.join`: whether it begins with a slash, and its names. -/
structure Part where
  absolute : Bool
  names : List String
deriving DecidableEq, Repr

/-- `os.path.join`: an absolute part drops what is before it. -/
def join (a b : Part) : Part := if b.absolute then b else ⟨a.absolute, a.names ++ b.names⟩

/-- A relative part. -/
def rel (names : List String) : Part := ⟨false, names⟩

/-- The path a part names, for a working directory. -/
def resolve (cwd : Path) (a : Part) : Path := if a.absolute then a.names else cwd ++ a.names

/-- A `SaveEnv`: `env_root`, and what `strftime` makes of the creation time (no name for an empty format, several for a format with slashes)
(save_env.py:39-48). -/
structure SaveEnv where
  root : Part
  time : List String
deriving DecidableEq, Repr

/-- `get_trial_root` (save_env.py:67-69). -/
def SaveEnv.trialRoot (e : SaveEnv) : Part := join e.root (rel e.time)

/-- `get_trial_config_dir` (save_env.py:71-75). -/
def SaveEnv.configDir (e : SaveEnv) : Part := join (join e.root (rel e.time)) (rel ["config"])

/-- `get_trial_model_dir` (save_env.py:77-81). -/
def SaveEnv.modelDir (e : SaveEnv) : Part := join (join e.root (rel e.time)) (rel ["model"])

/-- `get_trial_image_dir` (save_env.py:83-90). -/
def SaveEnv.imageDir (e : SaveEnv) : Part := join (join (join e.root (rel e.time)) (rel ["log"])) (rel ["images"])

/-- `get_trial_train_log_dir` (save_env.py:92-99). -/
def SaveEnv.trainLogDir (e : SaveEnv) : Part := join (join (join e.root (rel e.time)) (rel ["log"])) (rel ["train_log"])

/-- `clear_trial_config_dir` (save_env.py:105-115). -/
def SaveEnv.clearConfig (e : SaveEnv) (cwd : Path) (fs : FS) : FS × Except Err Unit :=
  clearDirs [resolve cwd (join (join e.root (rel e.time)) (rel ["config"]))] fs

/-- `clear_trial_model_dir` (save_env.py:117-127). -/
def SaveEnv.clearModel (e : SaveEnv) (cwd : Path) (fs : FS) : FS × Except Err Unit :=
  clearDirs [resolve cwd (join (join e.root (rel e.time)) (rel ["model"]))] fs

/-- `clear_trial_image_dir` (save_env.py:129-140). -/
def SaveEnv.clearImage (e : SaveEnv) (cwd : Path) (fs : FS) : FS × Except Err Unit :=
  clearDirs [resolve cwd (join (join (join e.root (rel e.time)) (rel ["log"])) (rel ["images"]))] fs

/-- `clear_trial_train_log_dir` (save_env.py:142-153). -/
def SaveEnv.clearTrainLog (e : SaveEnv) (cwd : Path) (fs : FS) : FS × Except Err Unit :=
  clearDirs [resolve cwd (join (join (join e.root (rel e.time)) (rel ["log"])) (rel ["train_log"]))] fs

/-- `create_dirs` (save_env.py:53-65). -/
def SaveEnv.createDirs (e : SaveEnv) (cwd : Path) (dirs : List Part) (fs : FS) : FS × Except Err Unit :=
  Dirs.createDirs (dirs.map fun d => resolve cwd (join (join e.root (rel e.time)) d)) fs

/-- `create_sub_dirs` (save_env.py:190-199). -/
def SaveEnv.createSubDirs (e : SaveEnv) (cwd : Path) (fs : FS) : FS × Except Err Unit :=
  let root := join e.root (rel e.time)
  Dirs.createDirs
    [resolve cwd (join root (rel ["model"])), resolve cwd (join root (rel ["config"])),
      resolve cwd (join (join root (rel ["log"])) (rel ["images"])), resolve cwd (join (join root (rel ["log"])) (rel ["train_log"]))] fs

end Machin.Dirs
