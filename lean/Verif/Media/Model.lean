import Verif.Base.Err

/-!
# Model of local logging of media files and trial directories

`machin/auto/pl_logger.py`, `machin/auto/dataset.py` (log_video), `machin/utils/media.py`, `machin/utils/save_env.py`. The file system is a list
of existing paths with contents; what the libraries write (PIL, moviepy, matplotlib) is not modelled.
-/

namespace Machin.Media

/-! ## LocalMediaLogger -/

/-- What `log_image` is given: a PIL image or a figure, a path with the extension `splitext` finds, or something else (pl_logger.py:95-110). -/
inductive Img
  | object
  | path (ext : String)
  | unsupported
deriving Repr, DecidableEq

/-- The file name extension used (pl_logger.py:95-99). -/
def Img.ext : Img → String
  | .path ext => ext
  | _ => ".png"

/-- `_counters` (pl_logger.py:22, 92-93, 100): a name that was never logged counts 0, which is what line 93 stores. -/
abbrev Counters := String → Nat

/-- `step or self._counters[log_name]` (pl_logger.py:96, 99): `None` and 0 are both false. -/
def stepOr (step : Option Int) (counter : Nat) : Int :=
  match step with
  | none => counter
  | some 0 => counter
  | some n => n

/-- The name of the file in `image_dir` (pl_logger.py:96, 99). -/
def imageName (name : String) (n : Int) (ext : String) : String := name ++ "_" ++ n.repr ++ ext

/-- One call of `log_image`. -/
structure Call where
  name : String
  image : Img
  step : Option Int
deriving Repr, DecidableEq

/-- `log_image` (pl_logger.py:76-110): the counter is raised before the type of the image is looked at; the result is the file written. -/
def logImage (c : Counters) (k : Call) : Counters × Except Err String :=
  (fun n => if n = k.name then c n + 1 else c n,
    match k.image with
    | .unsupported => .error .value
    | _ => .ok (imageName k.name (stepOr k.step (c k.name)) k.image.ext))

/-- The files written by a sequence of calls, from the given counters on. -/
def logImages (c : Counters) : List Call → List (Except Err String)
  | [] => []
  | k :: ks => (logImage c k).2 :: logImages (logImage c k).1 ks

/-- The loop of `enumerate_till_valid` (pl_logger.py:124-128), from the path tried at present and the counter; `root` and `ext` are what `splitext`
gives for the path asked for. `none`: not done after `fuel` rounds. -/
def enumLoop (exist : String → Bool) (root ext : String) : Nat → String → Nat → Option String
  | 0, _, _ => none
  | fuel + 1, cur, counter =>
    if exist cur then enumLoop exist root ext fuel (root ++ ("_" ++ (counter + 1).repr) ++ ext) (counter + 1) else some cur

/-- `enumerate_till_valid` (pl_logger.py:120-129). -/
def enumerateTillValid (exist : String → Bool) (split : String → String × String) (fuel : Nat) (path : String) : Option String :=
  enumLoop exist (split path).1 (split path).2 fuel path 0

/-- Existing paths with their contents. -/
abbrev Files (β : Type) := List (String × β)

/-- `os.path.exists`. -/
def Files.has {β : Type} (fs : Files β) (p : String) : Bool := fs.any fun f => f.1 == p

/-- Reading a file. -/
def Files.read {β : Type} (fs : Files β) (p : String) : Option β := (fs.find? fun f => f.1 == p).map (·.2)

/-- `shutil.copy` of a content to a path: writes over an existing file. -/
def Files.write {β : Type} (fs : Files β) (p : String) (c : β) : Files β := (p, c) :: fs.filter fun f => f.1 != p

/-- `log_artifact` (pl_logger.py:52-73) of a file with the given content; `dest` is the joined destination. The loop gets as many rounds as it could
ever need. -/
def logArtifact {β : Type} (split : String → String × String) (fs : Files β) (dest : String) (content : β) : Option (Files β × String) :=
  (enumerateTillValid fs.has split (fs.length + 2) dest).map fun p => (fs.write p content, p)

/-- A sequence of artifacts, from the given files on. -/
def logArtifacts {β : Type} (split : String → String × String) (fs : Files β) : List (String × β) → Option (Files β × List String)
  | [] => some (fs, [])
  | (d, c) :: rest =>
    (logArtifact split fs d c).bind fun r => (logArtifacts split r.1 rest).map fun q => (q.1, r.2 :: q.2)

/-! ## log_video -/

/-- The waiting loop of `log_video` (dataset.py:60-66): `sizes i` is the size of the file at its `i`-th reading. -/
def waitLoop (sizes : Nat → Nat) : Nat → Nat → Option Nat
  | 0, _ => none
  | fuel + 1, i => if sizes i ≠ 0 ∧ sizes (i + 1) = sizes i then some (i + 1) else waitLoop sizes fuel (i + 1)

/-- What a call of `log_video` leads to. -/
inductive VideoEnd
  | dropped          -- create_video raised: printed, temporary file removed (dataset.py:55-58)
  | logged (n : Nat) -- handed to `n` loggers, temporary file removed (dataset.py:68-72)
  | waiting          -- still in the loop
deriving Repr, DecidableEq

/-- `log_video` (dataset.py:44-72): `loggers` says which of the loggers have `log_artifact`. `write` is the outcome of `create_video` for a non-empty
list of frames: an error, or the size of the file; for no frames `create_video` writes nothing (media.py:72) and the file `mkstemp` made stays
empty. -/
def logVideo {P : Type} (write : List P → Option Nat) (loggers : List Bool) (fuel : Nat) (frames : List P) : VideoEnd :=
  match (if frames.isEmpty then some 0 else write frames) with
  | none => .dropped
  | some size =>
    match waitLoop (fun _ => size) fuel 0 with
    | none => .waiting
    | some _ => .logged (loggers.filter id).length

/-! ## Pictures -/

/-- The kind of the `dtype` of an array, as far as the code asks (media.py:74, 76, 151, 153). -/
inductive Kind
  | integer
  | floating
  | other
deriving Repr, DecidableEq

/-- The entries of a picture: `(H, W)` or `(H, W, C)`. -/
inductive Pixels
  | grey (p : List (List Rat))
  | color (p : List (List (List Rat)))
deriving Repr, DecidableEq

/-- A frame. -/
structure Frame where
  kind : Kind
  pixels : Pixels
deriving Repr, DecidableEq

/-- Conversion of a number to `uint8` (media.py:75, 77): cut off behind the point, then modulo 256. (For numbers out of range the C conversion of
floats is machine dependent; this is the usual outcome.) -/
def toByte (x : Rat) : Rat := (((if 0 ≤ x then x.floor else -(-x).floor) % 256 : Int) : Rat)

/-- One entry (media.py:74-77). -/
def entry : Kind → Rat → Rat
  | .integer, x => toByte x
  | .floating, x => toByte (x * 255)
  | .other, x => x

/-- The conversion of one frame (media.py:74-80, the same in lines 151-157): `np.repeat(…[:, :, np.newaxis], 3, axis=2)` makes three equal channels. -/
def convert (f : Frame) : Frame :=
  ⟨match f.kind with
    | .other => .other
    | _ => .integer,
   match f.pixels with
    | .grey p => .color (p.map (·.map fun x => List.replicate 3 (entry f.kind x)))
    | .color p => .color (p.map (·.map (·.map (entry f.kind))))⟩

/-- `create_video` (media.py:54-97): the list of the caller after the call, and the frames of the clip if one is written. The frames are replaced in
the list of the caller. -/
def createVideo (frames : List Frame) : List Frame × Option (List Frame) :=
  if frames.isEmpty then (frames, none) else (frames.map convert, some (frames.map convert))

/-- `numpy_array_to_pil_image` (media.py:150-159), without the construction of the image: here the caller's array is not changed. -/
def toImage (f : Frame) : Frame := convert f

/-! ## SaveEnv -/

/-- An entry of the environment root: what `strptime` makes of its name (`none`: `ValueError`), in microseconds, and whether it is a directory. -/
structure Entry where
  name : String
  time : Option Int
  isDir : Bool
deriving Repr, DecidableEq

/-- `timedelta(days=…, hours=…, minutes=…, seconds=…)` in microseconds (save_env.py:174-176). -/
def threshold (day hour minute second : Int) : Int := (((day * 24 + hour) * 60 + minute) * 60 + second) * 1000000

/-- `remove_trials_older_than` (save_env.py:155-188) over the listing: the entries left, and the outcome. `rmtree` of something that is not a
directory raises (code 20). -/
def removeOlder (now diff : Int) : List Entry → List Entry × Except Err Unit
  | [] => ([], .ok ())
  | e :: es =>
    match e.time with
    | none => let r := removeOlder now diff es; (e :: r.1, r.2)
    | some t =>
      if now - t > diff then
        if e.isDir then removeOlder now diff es else (e :: es, .error (.other 20))
      else let r := removeOlder now diff es; (e :: r.1, r.2)

/-- What `strftime` keeps of a time with the default format (save_env.py:17, 69): whole seconds. -/
def toSecond (t : Int) : Int := t / 1000000

/-- `get_trial_root` (save_env.py:67-69) as the pair of root and formatted time; the time is `datetime.now()` or the parsed name of an older trial
(save_env.py:43-48). -/
def trialRoot (root : String) (created : Int) : String × Int := (root, toSecond created)

/-- The creation time of an environment restarted from a trial: `strptime` of its name (save_env.py:46-48). -/
def restartTime (second : Int) : Int := second * 1000000

end Machin.Media
