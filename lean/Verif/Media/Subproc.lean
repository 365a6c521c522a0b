import Verif.Media.Model

/-! # Pictures and videos written by other processes (`create_video_subproc`, `create_image_subproc`, `machin/utils/media.py` lines 100-147, 176-221)

Both functions start a process of the standard `multiprocessing` (context "spawn") and return a function that joins it. The arguments are pickled by `start`, so
the child has a copy. What is modelled: the lists of the caller, the child processes, the files, and the end of the calling process. -/

namespace Machin.Media

/-- A child process: at work, ended after writing its file, ended by an exception, or terminated at the end of its parent. -/
inductive Status
  | running
  | done
  | failed
  | killed
deriving Repr, DecidableEq

/-- A child process: the frames it was given, the file it writes, `daemon` and its state. -/
structure Job where
  data : List Frame
  path : String
  daemon : Bool
  status : Status
deriving Repr, DecidableEq

/-- The lists of frames of the caller, the child processes in the order of their start, the files, whether the calling process is a daemonic process itself, and
whether it has ended. -/
structure Sys where
  lists : Nat → List Frame
  jobs : List Job
  files : String → Option (List Frame)
  daemonic : Bool
  ended : Bool

/-- What happens: the caller changes a list, calls one of the functions (media.py:100-147, 176-221), calls the function that was returned (`none`: that of line
131, which does nothing), or ends; a child ends, with or without having written its file. -/
inductive Ev
  | assign (l : Nat) (frames : List Frame)
  | video (l : Nat) (path : String) (daemon : Bool)
  | image (f : Frame) (path : String) (daemon : Bool)
  | wait (job : Option Nat)
  | exit
  | finish (job : Nat) (ok : Bool)

/-- `p = Process(…); p.daemon = daemon; p.start()` (media.py:135-139, 207-211): daemonic processes are not allowed to have children. -/
def Sys.start (s : Sys) (data : List Frame) (path : String) (daemon : Bool) : Sys × Except Err (Option Nat) :=
  if s.daemonic then (s, .error .assertion)
  else ({ s with jobs := s.jobs ++ [⟨data, path, daemon, .running⟩] }, .ok (some s.jobs.length))

/-- One step, with what a call gives; `none` if it cannot happen now: the caller does nothing after its end, `join` waits while the child is running, and a child
ends once. At its end a process terminates its daemonic children and waits for the others. -/
def Sys.step (s : Sys) : Ev → Option (Sys × Except Err (Option Nat))
  | .assign l frames => if s.ended then none else some ({ s with lists := fun k => if k = l then frames else s.lists k }, .ok none)
  | .video l path daemon =>
    if s.ended then none
    else if (s.lists l).isEmpty then some (s, .ok none)
    else some (s.start (s.lists l) path daemon)
  | .image f path daemon => if s.ended then none else some (s.start [f] path daemon)
  | .wait none => if s.ended then none else some (s, .ok none)
  | .wait (some i) =>
    if s.ended then none
    else
      match s.jobs[i]? with
      | none => none
      | some j => if j.status = .running then none else some (s, .ok none)
  | .exit =>
    if s.ended then none
    else some ({ s with ended := true, jobs := s.jobs.map fun j => if j.daemon ∧ j.status = .running then { j with status := .killed } else j }, .ok none)
  | .finish i ok =>
    match s.jobs[i]? with
    | none => none
    | some j =>
      if j.status = .running then
        if ok then
          some ({ s with jobs := s.jobs.set i { j with status := .done }
                         files := fun p => if p = j.path then some (j.data.map convert) else s.files p }, .ok none)
        else some ({ s with jobs := s.jobs.set i { j with status := .failed } }, .ok none)
      else none

/-- A history. -/
def Sys.run (s : Sys) : List Ev → Option Sys
  | [] => some s
  | e :: l =>
    match s.step e with
    | none => none
    | some r => r.1.run l

/-- A process that has started none of these children. -/
def Sys.init (daemonic : Bool) : Sys := ⟨fun _ => [], [], fun _ => none, daemonic, false⟩

end Machin.Media
