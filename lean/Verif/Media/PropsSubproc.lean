import Verif.Media.SubprocLemmas

/-!
# C262: pictures and videos written by other processes

C262: once the function that `create_video_subproc` returned has returned, the file holds the frames of the list at the time of the call, and also without
calling it the file is written in the end; the list of the caller is not changed.
**The code violates it**: the returned function joins the child and does not look at how it ended; and by default the child is a daemon, which is terminated
when the calling process ends.
-/

namespace Machin.Media

/-- All children have ended. -/
def Quiet (s : Sys) : Prop := ∀ j ∈ s.jobs, j.status ≠ .running

/-- The video of a list is the only thing written to its file. -/
def Alone (s : Sys) (i : Nat) (path : String) : Prop := ∀ (k : Nat) (j : Job), s.jobs[k]? = some j → j.path = path → k = i

/-- C262 in full: a video of frames, begun after any history; when the returned function returns, or all children have ended, the file is there. -/
def C262_full : Prop :=
  ∀ (before after : List Ev) (a s : Sys) (b : Sys × Except Err (Option Nat)) (l : Nat) (path : String) (d : Bool), (Sys.init false).run before = some a →
    a.lists l ≠ [] → a.step (.video l path d) = some b → b.1.run after = some s → Alone s a.jobs.length path →
    ((∃ r, s.step (.wait (some a.jobs.length)) = some r) ∨ Quiet s) → s.files path = some ((a.lists l).map convert)

/-- A frame for examples. -/
def white : Frame := ⟨.floating, .grey [[1]]⟩

/-- **C262 is violated**: the child fails (for instance because the directory does not exist), and the returned function returns as if nothing had happened. -/
theorem C262_violated : ¬ C262_full := by
  intro h
  have := h [.assign 0 [white]] [.finish 0 false] _ _ _ 0 "a.gif" true rfl (by decide) rfl rfl (by
    intro k j hj _
    match k, hj with
    | 0, _ => rfl
    | k + 1, hj => cases hj) (Or.inl ⟨_, rfl⟩)
  cases this

/-- **C262 is violated** by the default `daemon=True`: the caller ends before the child, which is terminated; there is no file although all processes have ended. -/
theorem C262_violated_daemon : ∃ s, (Sys.init false).run [.assign 0 [white], .video 0 "a.gif" true, .exit] = some s ∧ Quiet s ∧ s.files "a.gif" = none := by
  refine ⟨_, rfl, ?_, rfl⟩
  intro j hj
  simp [Sys.init, Sys.start] at hj
  subst hj
  simp

theorem step_video (a : Sys) (b : Sys × Except Err (Option Nat)) (l : Nat) (path : String) (d : Bool) (hd : a.daemonic = false) (hl : a.lists l ≠ [])
    (hb : a.step (.video l path d) = some b) :
    b.1.jobs[a.jobs.length]? = some ⟨a.lists l, path, d, .running⟩ ∧ b.2 = .ok (some a.jobs.length) ∧ b.1.lists = a.lists ∧ b.1.files = a.files := by
  simp only [Sys.step] at hb
  split at hb
  · cases hb
  · rw [if_neg (by simpa using hl)] at hb
    cases hb
    simp [Sys.start, hd]

/-- **C262** (partial), what holds, exactly: if the returned function returns, the child has written its file or has failed; if it has not failed and
nothing else is written to the same file, the file has the frames of the list at the time of the call, whatever the caller did to the list and whatever other
children did since. -/
theorem C262_wait_partial (q : Bool) (before after : List Ev) (a s : Sys) (b r : Sys × Except Err (Option Nat)) (l : Nat) (path : String) (d : Bool)
    (ha : (Sys.init q).run before = some a) (hq : a.daemonic = false) (hl : a.lists l ≠ []) (hb : a.step (.video l path d) = some b) (hs : b.1.run after = some s)
    (hr : s.step (.wait (some a.jobs.length)) = some r) :
    b.2 = .ok (some a.jobs.length) ∧ b.1.lists = a.lists ∧ r.1 = s ∧
    ∃ j, s.jobs[a.jobs.length]? = some j ∧ j.data = a.lists l ∧ j.path = path ∧ (j.status = .done ∨ j.status = .failed) ∧
      (j.status = .done → (s.files path).isSome ∧ (Alone s a.jobs.length path → s.files path = some ((a.lists l).map convert))) := by
  obtain ⟨h1, h2, h3, -⟩ := step_video a b l path d hq hl hb
  have hinv : Inv s := inv_run _ _ _ (inv_step (inv_run _ _ _ (inv_init q) ha) _ _ hb) hs
  obtain ⟨j, hj, e1, e2, -⟩ := kept_run _ _ _ hs _ _ h1
  have hmem := List.mem_of_getElem? hj
  simp only [Sys.step, hj] at hr
  split at hr
  · cases hr
  · rename_i hend
    split at hr
    · cases hr
    · rename_i hrun
      cases hr
      refine ⟨h2, h3, rfl, j, hj, e1, e2, ?_, ?_⟩
      · cases hst : j.status with
        | running => exact absurd hst hrun
        | done => exact Or.inl rfl
        | failed => exact Or.inr rfl
        | killed => exact absurd (hinv.killed j hmem hst).2 hend
      · intro hd
        have hsome := hinv.done j hmem hd
        rw [e2] at hsome
        refine ⟨hsome, fun halone => ?_⟩
        obtain ⟨c, hc⟩ := Option.isSome_iff_exists.1 hsome
        obtain ⟨k, hk, -, hp, rfl⟩ := hinv.file _ _ hc
        obtain ⟨n, hn⟩ := List.getElem?_of_mem hk
        have := halone n k hn hp
        subst this
        rw [hj] at hn
        cases hn
        rw [hc, e1]

/-- **C262** (partial): with `daemon=False` the file is written in the end even if the caller never waits, unless the child fails. -/
theorem C262_kept_partial (q : Bool) (before after : List Ev) (a s : Sys) (b : Sys × Except Err (Option Nat)) (l : Nat) (path : String)
    (ha : (Sys.init q).run before = some a) (hq : a.daemonic = false) (hl : a.lists l ≠ []) (hb : a.step (.video l path false) = some b)
    (hs : b.1.run after = some s) (hquiet : Quiet s) (hf : ∀ j, s.jobs[a.jobs.length]? = some j → j.status ≠ .failed) (halone : Alone s a.jobs.length path) :
    s.files path = some ((a.lists l).map convert) := by
  obtain ⟨h1, -⟩ := step_video a b l path false hq hl hb
  have hinv : Inv s := inv_run _ _ _ (inv_step (inv_run _ _ _ (inv_init q) ha) _ _ hb) hs
  obtain ⟨j, hj, e1, e2, e3⟩ := kept_run _ _ _ hs _ _ h1
  have hmem := List.mem_of_getElem? hj
  have hd : j.status = .done := by
    cases hst : j.status with
    | running => exact absurd hst (hquiet j hmem)
    | done => rfl
    | failed => exact absurd hst (hf j hj)
    | killed =>
      have := (hinv.killed j hmem hst).1
      rw [e3] at this
      cases this
  have hsome := hinv.done j hmem hd
  rw [e2] at hsome
  obtain ⟨c, hc⟩ := Option.isSome_iff_exists.1 hsome
  obtain ⟨k, hk, -, hp, rfl⟩ := hinv.file _ _ hc
  obtain ⟨n, hn⟩ := List.getElem?_of_mem hk
  have := halone n k hn hp
  subst this
  rw [hj] at hn
  cases hn
  rw [hc, e1]

/-- **C262** (partial): without frames nothing is started and waiting for it returns at once; a picture is handed to a child as it is. -/
theorem C262_calls_partial (s : Sys) (he : s.ended = false) (l : Nat) (f : Frame) (path : String) (d : Bool) :
    (s.lists l = [] → s.step (.video l path d) = some (s, .ok none) ∧ s.step (.wait none) = some (s, .ok none)) ∧
    (s.daemonic = false → s.step (.image f path d) = some ({ s with jobs := s.jobs ++ [⟨[f], path, d, .running⟩] }, .ok (some s.jobs.length))) := by
  constructor
  · intro h
    simp [Sys.step, he, h]
  · intro h
    simp [Sys.step, he, Sys.start, h]

/-- **C262** (partial) for pictures: if the function that `create_image_subproc` returned returns, the child has written its file or has failed; if it has not
failed and nothing else is written to the same file, the file has the picture. -/
theorem C262_image_partial (q : Bool) (before after : List Ev) (a s : Sys) (b r : Sys × Except Err (Option Nat)) (f : Frame) (path : String) (d : Bool)
    (ha : (Sys.init q).run before = some a) (hq : a.daemonic = false) (hb : a.step (.image f path d) = some b) (hs : b.1.run after = some s)
    (hr : s.step (.wait (some a.jobs.length)) = some r) :
    b.2 = .ok (some a.jobs.length) ∧ ∃ j, s.jobs[a.jobs.length]? = some j ∧ j.path = path ∧ (j.status = .done ∨ j.status = .failed) ∧
      (j.status = .done → Alone s a.jobs.length path → s.files path = some [toImage f]) := by
  have he : a.ended = false := by
    cases h : a.ended with
    | false => rfl
    | true => simp [Sys.step, h] at hb
  have hinv : Inv s := inv_run _ _ _ (inv_step (inv_run _ _ _ (inv_init q) ha) _ _ hb) hs
  rw [(C262_calls_partial a he 0 f path d).2 hq] at hb
  cases hb
  obtain ⟨j, hj, e1, e2, -⟩ := kept_run _ _ _ hs a.jobs.length ⟨[f], path, d, .running⟩ (by simp)
  have hmem := List.mem_of_getElem? hj
  refine ⟨rfl, j, hj, e2, ?_, ?_⟩
  · simp only [Sys.step, hj] at hr
    split at hr
    · cases hr
    · rename_i hend
      split at hr
      · cases hr
      · rename_i hrun
        cases hst : j.status with
        | running => exact absurd hst hrun
        | done => exact Or.inl rfl
        | failed => exact Or.inr rfl
        | killed => exact absurd (hinv.killed j hmem hst).2 hend
  · intro hd halone
    have hsome := hinv.done j hmem hd
    rw [e2] at hsome
    obtain ⟨c, hc⟩ := Option.isSome_iff_exists.1 hsome
    obtain ⟨k, hk, -, hp, rfl⟩ := hinv.file _ _ hc
    obtain ⟨n, hn⟩ := List.getElem?_of_mem hk
    have := halone n k hn hp
    subst this
    rw [hj] at hn
    cases hn
    rw [hc, e1]
    rfl

example : ((Sys.init false).run [.image white "a.png" true, .finish 0 true, .wait (some 0)]).map (fun s => s.files "a.png") = some (some [toImage white]) := by
  decide +kernel

/-- **C262**: in a daemonic process both functions raise, also with `daemon=False`, for which the documentation promises that they can be used. -/
theorem C262_violated_daemonic (s : Sys) (hq : s.daemonic = true) (he : s.ended = false) (l : Nat) (hl : s.lists l ≠ []) (f : Frame) (path : String) (d : Bool) :
    s.step (.video l path d) = some (s, .error .assertion) ∧ s.step (.image f path d) = some (s, .error .assertion) := by
  have : (s.lists l).isEmpty = false := by simpa using hl
  simp [Sys.step, he, Sys.start, hq, this]

/-- Two videos, the list changed in between, children ending in the other order. -/
example : ((Sys.init false).run [.assign 0 [white], .video 0 "a.gif" true, .assign 0 [white, white], .video 0 "b.gif" false, .finish 1 true, .wait (some 1),
    .finish 0 true, .wait (some 0), .exit]).map (fun s => ((s.files "a.gif").map List.length, (s.files "b.gif").map List.length, s.jobs.map (·.status))) =
    some (some 1, some 2, [.done, .done]) := by decide +kernel

/-- Waiting for a child at work does not return. -/
example : ((Sys.init false).run [.assign 0 [white], .video 0 "a.gif" true, .wait (some 0)]).isNone = true := by decide +kernel

end Machin.Media
