import Verif.Dirs.Lemmas

/-!
# C160: clearing a directory empties it and nothing else; C161: directories are created where they belong
-/

namespace Machin.Dirs

/-! ### Specification -/

/-- `q` lies below `p` (it is not `p` itself). -/
def Below (p q : Path) : Prop := ∃ f r, q = p ++ f :: r

/-- A directory or the root directory. -/
def Directory (fs : FS) (p : Path) : Prop := p = [] ∨ get fs p = some .dir

theorem directory_iff (fs : FS) (p : Path) : isDir fs p = true ↔ Directory fs p := by simp [isDir, Directory]

/-! ### C160 -/

/-- Full statement: clearing an existing directory works, leaves nothing below it, and changes nothing else. -/
def C160_full : Prop := ∀ (fs : FS) (p : Path), WF fs → Directory fs p →
  (clearDirs [p] fs).2 = .ok () ∧ ∀ q, (Below p q → get (clearDirs [p] fs).1 q = none) ∧ (¬ Below p q → get (clearDirs [p] fs).1 q = get fs q)

theorem clear_one (fs : FS) (p : Path) (hw : WF fs) (hd : Directory fs p) :
    (clearDirs [p] fs).2 = .ok () ∧ WF (clearDirs [p] fs).1 ∧
      ∀ q, ((Below p q ∧ ¬ ∃ f, q = p ++ [f] ∧ get fs q = some .special) → get (clearDirs [p] fs).1 q = none) ∧
        (¬ (Below p q ∧ ¬ ∃ f, q = p ++ [f] ∧ get fs q = some .special) → get (clearDirs [p] fs).1 q = get fs q) := by
  have hl : ∃ names, listdir fs p = .ok names ∧ ∀ f, f ∈ names ↔ (get fs (p ++ [f])).isSome = true := by
    refine ⟨_, ?_, mem_names fs p⟩
    unfold listdir
    simp only [(directory_iff fs p).mpr hd, if_true]
  obtain ⟨names, h1, h2⟩ := hl
  obtain ⟨h3, h4⟩ := get_clearNames p names fs hw
  simp only [clearDirs, h1]
  refine ⟨trivial, h3, fun q => ⟨?_, ?_⟩⟩
  · rintro ⟨⟨f, r, rfl⟩, hs⟩
    by_cases hin : ∃ g ∈ names, Removable fs p g ∧ p ++ [g] <+: p ++ f :: r
    · exact (h4 _).1 hin
    · rw [(h4 _).2 hin]
      cases hg : get fs (p ++ f :: r) with
      | none => rfl
      | some k =>
        exfalso
        have hpre : p ++ [f] <+: p ++ f :: r := by
          rw [List.prefix_append_right_inj]; simp
        by_cases hr : r = []
        · subst hr
          refine hin ⟨f, (h2 f).mpr (by simp [hg]), ⟨k, hg, ?_⟩, hpre⟩
          rintro rfl
          exact hs ⟨f, rfl, hg⟩
        · have := wf_child hw p f r k hg hr
          exact hin ⟨f, (h2 f).mpr (by simp [this]), ⟨_, this, by simp⟩, hpre⟩
  · intro hno
    apply (h4 q).2
    rintro ⟨f, _, ⟨k, hk, hk'⟩, ⟨r, rfl⟩⟩
    apply hno
    refine ⟨⟨f, r, by simp⟩, ?_⟩
    rintro ⟨g, hg, hs⟩
    have e : f :: r = [g] := by simpa using hg
    obtain ⟨rfl, rfl⟩ : f = g ∧ r = [] := by simpa using e
    rw [List.append_nil, hk] at hs
    exact hk' (Option.some.inj hs)

/-- What remains below the directory are exactly sockets, pipes and devices directly in it; all else is as it was. -/
theorem C160_clear_partial (fs : FS) (p : Path) (hw : WF fs) (hd : Directory fs p) :
    (clearDirs [p] fs).2 = .ok () ∧
      ∀ q, ((Below p q ∧ ¬ ∃ f, q = p ++ [f] ∧ get fs q = some .special) → get (clearDirs [p] fs).1 q = none) ∧
        (¬ (Below p q ∧ ¬ ∃ f, q = p ++ [f] ∧ get fs q = some .special) → get (clearDirs [p] fs).1 q = get fs q) :=
  ⟨(clear_one fs p hw hd).1, (clear_one fs p hw hd).2.2⟩

/-- Without such entries directly in it the directory is empty afterwards. -/
theorem C160_empty_partial (fs : FS) (p : Path) (hw : WF fs) (hd : Directory fs p) (hs : ∀ f, get fs (p ++ [f]) ≠ some .special) :
    (clearDirs [p] fs).2 = .ok () ∧ ∀ q, (Below p q → get (clearDirs [p] fs).1 q = none) ∧ (¬ Below p q → get (clearDirs [p] fs).1 q = get fs q) := by
  obtain ⟨h1, h2⟩ := C160_clear_partial fs p hw hd
  refine ⟨h1, fun q => ⟨fun hb => (h2 q).1 ⟨hb, ?_⟩, fun hb => (h2 q).2 fun h => hb h.1⟩⟩
  rintro ⟨f, rfl, h⟩
  exact hs f h

/-- A directory that is missing, or something else, raises an error and nothing is changed. -/
theorem C160_missing (fs : FS) (p : Path) (hd : ¬ Directory fs p) :
    clearDirs [p] fs = (fs, .error (.other (if get fs p = none then 2 else 20))) := by
  have : isDir fs p = false := by
    cases h : isDir fs p with
    | false => rfl
    | true => exact absurd ((directory_iff fs p).mp h) hd
  cases hg : get fs p <;> simp [clearDirs, listdir, this, hg]

/-- Clearing several directories, none above another one: each is emptied. -/
theorem C160_several_partial (ps : List Path) (fs : FS) (hw : WF fs) (hd : ∀ p ∈ ps, Directory fs p) (hn : ps.Pairwise fun a b => ¬ a <+: b ∧ ¬ b <+: a)
    (hs : ∀ p ∈ ps, ∀ f, get fs (p ++ [f]) ≠ some .special) :
    (clearDirs ps fs).2 = .ok () ∧
      ∀ q, ((∃ p ∈ ps, Below p q) → get (clearDirs ps fs).1 q = none) ∧ ((¬ ∃ p ∈ ps, Below p q) → get (clearDirs ps fs).1 q = get fs q) := by
  induction ps generalizing fs with
  | nil => exact ⟨rfl, fun q => ⟨by simp, fun _ => rfl⟩⟩
  | cons p ps ih =>
    rw [List.pairwise_cons] at hn
    have h1 := clear_one fs p hw (hd p List.mem_cons_self)
    have h2 := C160_empty_partial fs p hw (hd p List.mem_cons_self) (hs p List.mem_cons_self)
    have hsplit : clearDirs (p :: ps) fs = clearDirs ps (clearDirs [p] fs).1 := by
      have := h2.1
      simp only [clearDirs] at this ⊢
      cases hl : listdir fs p with
      | error e => simp [hl] at this
      | ok names => rfl
    have hnb : ∀ a ∈ ps, ∀ r, ¬ Below p (a ++ r) ∨ a <+: p := by
      intro a ha r
      by_cases hap : a <+: p
      · exact Or.inr hap
      · left
        rintro ⟨f, s, h⟩
        rcases List.prefix_or_prefix_of_prefix (List.prefix_append a r) (h ▸ List.prefix_append p (f :: s)) with h' | h'
        · exact hap h'
        · exact (hn.1 a ha).1 h'
    have keep : ∀ a ∈ ps, ∀ r, get (clearDirs [p] fs).1 (a ++ r) = get fs (a ++ r) := by
      intro a ha r
      rcases hnb a ha r with h | h
      · exact (h2.2 _).2 h
      · exact absurd h (hn.1 a ha).2
    rw [hsplit]
    obtain ⟨g1, g2⟩ := ih (clearDirs [p] fs).1 h1.2.1
      (fun a ha => by
        have := hd a (List.mem_cons_of_mem _ ha)
        have k := keep a ha []
        rw [List.append_nil] at k
        exact this.imp id fun h => k.trans h)
      hn.2
      (fun a ha f => by rw [keep a ha [f]]; exact hs a (List.mem_cons_of_mem _ ha) f)
    refine ⟨g1, fun q => ⟨?_, ?_⟩⟩
    · rintro ⟨a, ha, hb⟩
      by_cases hin : ∃ a ∈ ps, Below a q
      · exact (g2 q).1 hin
      · rw [(g2 q).2 hin]
        rcases List.mem_cons.mp ha with rfl | ha'
        · exact (h2.2 q).1 hb
        · exact absurd ⟨a, ha', hb⟩ hin
    · intro hno
      rw [(g2 q).2 fun ⟨a, ha, hb⟩ => hno ⟨a, List.mem_cons_of_mem _ ha, hb⟩]
      exact (h2.2 q).2 fun hb => hno ⟨p, List.mem_cons_self, hb⟩

/-- A directory with a file, a directory with a pipe in it, a dead link and a pipe; a file beside. -/
def sample : FS :=
  [(["t"], .dir), (["t", "model"], .dir), (["t", "model", "a.pt"], .file 1), (["t", "model", "old"], .dir), (["t", "model", "old", "pipe"], .special),
    (["t", "model", "last"], .link false), (["t", "model", "pipe"], .special), (["t", "notes"], .file 2)]

theorem wf_of_check (fs : FS) (h : ∀ e ∈ fs, ∀ q x, e.1 = q ++ [x] → isDir fs q = true) : WF fs := by
  intro q x k hk
  obtain ⟨e, he, h'⟩ := (get_isSome fs (q ++ [x])).mp (by simp [hk])
  exact h e he q x h'

theorem sample_wf : WF sample := by
  apply wf_of_check
  intro e he q x h
  have hq : q = e.1.dropLast := by simp [h]
  subst hq
  have : ∀ e ∈ sample, isDir sample e.1.dropLast = true := by decide
  exact this e he

instance (fs : FS) (p : Path) : Decidable (Directory fs p) := inferInstanceAs (Decidable (_ ∨ _))

example : Directory sample ["t", "model"] ∧ (clearDirs [["t", "model"]] sample).1 =
    [(["t"], .dir), (["t", "model"], .dir), (["t", "model", "pipe"], .special), (["t", "notes"], .file 2)] := by decide +kernel

theorem C160_violated : ¬ C160_full := by
  intro h
  have := ((h sample ["t", "model"] sample_wf (Or.inr (by decide))).2 ["t", "model", "pipe"]).1 ⟨"pipe", [], rfl⟩
  revert this
  decide +kernel

/-- The hypotheses of the theorem on several directories are met. -/
example : let fs := [(["a"], Kind.dir), (["b"], .dir), (["a", "x"], .file 1), (["b", "y"], .dir), (["b", "y", "z"], .link true)]
    (clearDirs [["a"], ["b"]] fs).1 = [(["a"], Kind.dir), (["b"], .dir)] ∧ ¬ ["a"] <+: ["b"] ∧ ¬ ["b"] <+: ["a"] := by decide +kernel

/-! ### C161 -/

/-- Full statement: when the creation of directories has not raised an error, each of them is a directory (or a link to something), and the directories
`create_dirs` makes lie in the root of the trial. -/
def C161_full : Prop :=
  (∀ (fs fs' : FS) (ps : List Path), WF fs → createDirs ps fs = (fs', .ok ()) → ∀ p ∈ ps, Directory fs' p ∨ get fs' p = some (.link true)) ∧
  (∀ (e : SaveEnv) (cwd : Path) (d : Part), resolve cwd e.trialRoot <+: resolve cwd (join e.trialRoot d))

/-- Without an error each path is there, as the directory made or as what was found there before; what was there is as it was, and only directories on the way to
the paths are new. -/
theorem C161_create_partial (fs fs' : FS) (ps : List Path) (h : createDirs ps fs = (fs', .ok ())) :
    (∀ p ∈ ps, Directory fs' p ∨ (isThere fs p = true ∧ get fs' p = get fs p)) ∧
      ∀ q, get fs' q = get fs q ∨ (get fs q = none ∧ get fs' q = some .dir ∧ ∃ p ∈ ps, q <+: p) := by
  have hg := createDirs_grows ps fs
  rw [h] at hg
  refine ⟨?_, hg⟩
  clear hg
  induction ps generalizing fs with
  | nil => simp
  | cons p ps ih =>
    have hg := createDirs_grows (p :: ps) fs
    rw [h] at hg
    simp only [createDirs] at h
    split at h
    · rename_i ht
      intro a ha
      rcases List.mem_cons.mp ha with rfl | ha'
      · rcases hg a with e | ⟨_, d, _⟩
        · exact Or.inr ⟨ht, e⟩
        · exact Or.inl (Or.inr d)
      · exact ih fs h a ha'
    · split at h
      · rename_i gs h1
        have hd : get gs p = some .dir := by
          have := makedirsRev_ok p.reverse fs gs h1
          simpa using this
        have hg2 := createDirs_grows ps gs
        rw [h] at hg2
        intro a ha
        rcases List.mem_cons.mp ha with rfl | ha'
        · left; right
          rcases hg2 a with e | ⟨n, _, _⟩
          · exact e.trans hd
          · rw [hd] at n; cases n
        · rcases ih gs h a ha' with hh | ⟨h2, h3⟩
          · exact Or.inl hh
          · have hm := makedirsRev_grows p.reverse fs
            unfold makedirs at h1
            rw [h1] at hm
            rcases hm a with e | ⟨n, d, _⟩
            · right
              refine ⟨?_, h3.trans e⟩
              simpa [isThere, e] using h2
            · exact Or.inl (Or.inr (h3.trans d))
      · simp at h

/-- It works when nothing on the way is something else than a directory, and then each path is a directory. -/
theorem C161_works (fs : FS) (ps : List Path) (hd : ∀ p ∈ ps, ∀ q, q <+: p → Directory fs q ∨ get fs q = none) :
    (createDirs ps fs).2 = .ok () ∧ ∀ p ∈ ps, Directory (createDirs ps fs).1 p := by
  induction ps generalizing fs with
  | nil => simp [createDirs]
  | cons p ps ih =>
    have grow : ∀ gs : FS, Grows (fun q => q <+: p) fs gs → ∀ a ∈ ps, ∀ q, q <+: a → Directory gs q ∨ get gs q = none := by
      intro gs hg a ha q hq
      rcases hd a (List.mem_cons_of_mem _ ha) q hq with h | h
      · exact Or.inl ((directory_iff gs q).mp (hg.isDir ((directory_iff fs q).mpr h)))
      · rcases hg q with e | ⟨_, d, _⟩
        · exact Or.inr (e.trans h)
        · exact Or.inl (Or.inr d)
    have fin : ∀ gs : FS, Directory gs p → ((createDirs ps gs).2 = .ok () ∧ ∀ a ∈ ps, Directory (createDirs ps gs).1 a) →
        (createDirs ps gs).2 = .ok () ∧ ∀ a ∈ p :: ps, Directory (createDirs ps gs).1 a := by
      intro gs hp hi
      refine ⟨hi.1, fun a ha => ?_⟩
      rcases List.mem_cons.mp ha with rfl | ha'
      · exact (directory_iff _ _).mp ((createDirs_grows ps gs).isDir ((directory_iff gs a).mpr hp))
      · exact hi.2 a ha'
    simp only [createDirs]
    split
    · rename_i ht
      have hp : Directory fs p := by
        rcases hd p List.mem_cons_self p (List.prefix_refl p) with h | h
        · exact h
        · simp only [isThere, h, Bool.or_false, decide_eq_true_eq] at ht
          exact Or.inl ht
      exact fin fs hp (ih fs (grow fs (Grows.refl _ _)))
    · rename_i ht
      have hn : get fs p = none := by
        rcases hd p List.mem_cons_self p (List.prefix_refl p) with h | h
        · exact absurd (isDir_isThere ((directory_iff fs p).mpr h)) ht
        · exact h
      have hne : p ≠ [] := by rintro rfl; simp [isThere] at ht
      have hw := makedirsRev_works p.reverse fs
        (fun q hq => (hd p List.mem_cons_self q (by simpa using hq)).imp (directory_iff fs q).mpr id)
        (by simpa using hn) (by simpa using hne)
      have hg := makedirsRev_grows p.reverse fs
      unfold makedirs
      cases hr : makedirsRev p.reverse fs with
      | mk gs res =>
        rw [hr] at hw hg
        simp only at hw
        subst hw
        have hp : get gs p = some .dir := by
          have := makedirsRev_ok p.reverse fs gs hr
          simpa using this
        exact fin gs (Or.inr hp) (ih gs (grow gs (by simpa using hg)))

/-- Relative names stay in the root of the trial. -/
theorem C161_relative_partial (e : SaveEnv) (cwd : Path) (d : Part) (hd : d.absolute = false) :
    resolve cwd e.trialRoot <+: resolve cwd (join e.trialRoot d) := by
  simp only [join, hd, resolve]
  simp only [Bool.false_eq_true, if_false]
  split <;> simp [← List.append_assoc]

/-- `create_dirs` of a trial makes the relative names below the root of the trial when nothing else is in their place. -/
theorem C161_trial_dirs (e : SaveEnv) (cwd : Path) (dirs : List Part) (fs : FS) (hrel : ∀ d ∈ dirs, d.absolute = false)
    (hd : ∀ d ∈ dirs, ∀ q, q <+: resolve cwd e.trialRoot ++ d.names → Directory fs q ∨ get fs q = none) :
    (e.createDirs cwd dirs fs).2 = .ok () ∧ ∀ d ∈ dirs, Directory (e.createDirs cwd dirs fs).1 (resolve cwd e.trialRoot ++ d.names) := by
  have he : ∀ d ∈ dirs, resolve cwd (join (join e.root (rel e.time)) d) = resolve cwd e.trialRoot ++ d.names := by
    intro d h
    simp only [SaveEnv.trialRoot, join, rel, resolve, hrel d h]
    obtain ⟨⟨a, ns⟩, time⟩ := e
    cases a <;> simp
  unfold SaveEnv.createDirs
  rw [List.map_congr_left he]
  have h := C161_works fs (dirs.map fun d => resolve cwd e.trialRoot ++ d.names)
    (by
      intro p hp q hq
      obtain ⟨d, hd', rfl⟩ := List.mem_map.mp hp
      exact hd d hd' q hq)
  exact ⟨h.1, fun d hd' => h.2 _ (List.mem_map.mpr ⟨d, hd', rfl⟩)⟩

theorem dirs_eq (e : SaveEnv) (cwd : Path) :
    resolve cwd e.modelDir = resolve cwd e.trialRoot ++ ["model"] ∧ resolve cwd e.configDir = resolve cwd e.trialRoot ++ ["config"] ∧
    resolve cwd e.imageDir = resolve cwd e.trialRoot ++ ["log", "images"] ∧ resolve cwd e.trainLogDir = resolve cwd e.trialRoot ++ ["log", "train_log"] := by
  simp only [SaveEnv.modelDir, SaveEnv.configDir, SaveEnv.imageDir, SaveEnv.trainLogDir, SaveEnv.trialRoot, join, rel, resolve]
  obtain ⟨⟨a, ns⟩, time⟩ := e
  cases a <;> simp

/-- The four directories of a trial exist after `create_sub_dirs` when nothing else is in their place; everything there before is as it was. -/
theorem C161_sub_dirs (e : SaveEnv) (cwd : Path) (fs : FS)
    (hd : ∀ q, q <+: resolve cwd e.modelDir ∨ q <+: resolve cwd e.configDir ∨ q <+: resolve cwd e.imageDir ∨ q <+: resolve cwd e.trainLogDir →
      Directory fs q ∨ get fs q = none) :
    (e.createSubDirs cwd fs).2 = .ok () ∧
      (∀ p ∈ [e.modelDir, e.configDir, e.imageDir, e.trainLogDir], Directory (e.createSubDirs cwd fs).1 (resolve cwd p)) ∧
      ∀ q k, get fs q = some k → get (e.createSubDirs cwd fs).1 q = some k := by
  have h := C161_works fs [resolve cwd e.modelDir, resolve cwd e.configDir, resolve cwd e.imageDir, resolve cwd e.trainLogDir]
    (by
      intro p hp q hq
      simp only [List.mem_cons, List.not_mem_nil, or_false] at hp
      rcases hp with rfl | rfl | rfl | rfl
      · exact hd q (Or.inl hq)
      · exact hd q (Or.inr (Or.inl hq))
      · exact hd q (Or.inr (Or.inr (Or.inl hq)))
      · exact hd q (Or.inr (Or.inr (Or.inr hq))))
  refine ⟨h.1, ?_, ?_⟩
  · intro p hp
    apply h.2
    simp only [List.mem_cons, List.not_mem_nil, or_false] at hp ⊢
    rcases hp with rfl | rfl | rfl | rfl <;> simp
  · intro q k hk
    rcases createDirs_grows [resolve cwd e.modelDir, resolve cwd e.configDir, resolve cwd e.imageDir, resolve cwd e.trainLogDir] fs q with h | ⟨h, _, _⟩
    · exact h.trans hk
    · rw [hk] at h; cases h

/-- Clearing one directory of a trial leaves the other three, and all in them, as they were. -/
theorem C161_clear_apart (e : SaveEnv) (cwd : Path) (fs : FS) (hw : WF fs) :
    (Directory fs (resolve cwd e.configDir) → ∀ p ∈ [e.modelDir, e.imageDir, e.trainLogDir], ∀ r,
      get (e.clearConfig cwd fs).1 (resolve cwd p ++ r) = get fs (resolve cwd p ++ r)) ∧
    (Directory fs (resolve cwd e.modelDir) → ∀ p ∈ [e.configDir, e.imageDir, e.trainLogDir], ∀ r,
      get (e.clearModel cwd fs).1 (resolve cwd p ++ r) = get fs (resolve cwd p ++ r)) ∧
    (Directory fs (resolve cwd e.imageDir) → ∀ p ∈ [e.modelDir, e.configDir, e.trainLogDir], ∀ r,
      get (e.clearImage cwd fs).1 (resolve cwd p ++ r) = get fs (resolve cwd p ++ r)) ∧
    (Directory fs (resolve cwd e.trainLogDir) → ∀ p ∈ [e.modelDir, e.configDir, e.imageDir], ∀ r,
      get (e.clearTrainLog cwd fs).1 (resolve cwd p ++ r) = get fs (resolve cwd p ++ r)) := by
  obtain ⟨m, c, i, t⟩ := dirs_eq e cwd
  have key : ∀ a b : Path, Directory fs (resolve cwd e.trialRoot ++ a) → (∀ x y, a ++ x ≠ b ++ y) →
      ∀ r, get (clearDirs [resolve cwd e.trialRoot ++ a] fs).1 (resolve cwd e.trialRoot ++ b ++ r) = get fs (resolve cwd e.trialRoot ++ b ++ r) := by
    intro a b hd hab r
    apply ((C160_clear_partial fs _ hw hd).2 _).2
    rintro ⟨⟨f, s, h⟩, _⟩
    rw [List.append_assoc, List.append_assoc, List.append_cancel_left_eq] at h
    exact hab (f :: s) r h.symm
  refine ⟨fun hd p hp r => ?_, fun hd p hp r => ?_, fun hd p hp r => ?_, fun hd p hp r => ?_⟩ <;>
    simp only [List.mem_cons, List.not_mem_nil, or_false] at hp
  · unfold SaveEnv.clearConfig
    rw [show resolve cwd (join (join e.root (rel e.time)) (rel ["config"])) = resolve cwd e.trialRoot ++ ["config"] from c]
    rw [c] at hd
    rcases hp with rfl | rfl | rfl <;> simp only [m, i, t] <;> exact key _ _ hd (by simp) r
  · unfold SaveEnv.clearModel
    rw [show resolve cwd (join (join e.root (rel e.time)) (rel ["model"])) = resolve cwd e.trialRoot ++ ["model"] from m]
    rw [m] at hd
    rcases hp with rfl | rfl | rfl <;> simp only [c, i, t] <;> exact key _ _ hd (by simp) r
  · unfold SaveEnv.clearImage
    rw [show resolve cwd (join (join (join e.root (rel e.time)) (rel ["log"])) (rel ["images"])) = resolve cwd e.trialRoot ++ ["log", "images"] from i]
    rw [i] at hd
    rcases hp with rfl | rfl | rfl <;> simp only [m, c, t] <;> exact key _ _ hd (by simp) r
  · unfold SaveEnv.clearTrainLog
    rw [show resolve cwd (join (join (join e.root (rel e.time)) (rel ["log"])) (rel ["train_log"])) = resolve cwd e.trialRoot ++ ["log", "train_log"] from t]
    rw [t] at hd
    rcases hp with rfl | rfl | rfl <;> simp only [m, c, i] <;> exact key _ _ hd (by simp) r

/-- Each function clears the directory its name says. -/
theorem C161_clear_own (e : SaveEnv) (cwd : Path) (fs : FS) :
    e.clearConfig cwd fs = clearDirs [resolve cwd e.trialRoot ++ ["config"]] fs ∧ e.clearModel cwd fs = clearDirs [resolve cwd e.trialRoot ++ ["model"]] fs ∧
    e.clearImage cwd fs = clearDirs [resolve cwd e.trialRoot ++ ["log", "images"]] fs ∧
    e.clearTrainLog cwd fs = clearDirs [resolve cwd e.trialRoot ++ ["log", "train_log"]] fs := by
  obtain ⟨m, c, i, t⟩ := dirs_eq e cwd
  rw [← m, ← c, ← i, ← t]
  exact ⟨rfl, rfl, rfl, rfl⟩

/-- Where the trial is: below the root of the environment, in a directory named after the time; a relative root is taken from the working directory. -/
theorem C161_trial_root (e : SaveEnv) (cwd : Path) :
    (e.root.absolute = true → resolve cwd e.trialRoot = e.root.names ++ e.time) ∧
    (e.root.absolute = false → resolve cwd e.trialRoot = cwd ++ e.root.names ++ e.time) := by
  constructor <;> intro h <;> simp [SaveEnv.trialRoot, join, rel, resolve, h]

def trial : SaveEnv := ⟨⟨false, ["runs"]⟩, ["2021_05_01_10_00_00"]⟩

example : ((trial.createSubDirs ["home"] [(["home"], .dir)]).1.map (·.1)).drop 3 =
    [["home", "runs", "2021_05_01_10_00_00", "model"], ["home", "runs", "2021_05_01_10_00_00", "config"], ["home", "runs", "2021_05_01_10_00_00", "log"],
      ["home", "runs", "2021_05_01_10_00_00", "log", "images"], ["home", "runs", "2021_05_01_10_00_00", "log", "train_log"]] := by decide +kernel

example : get (trial.createDirs ["home"] [rel ["model", "best"]] [(["home"], .dir)]).1 ["home", "runs", "2021_05_01_10_00_00", "model", "best"] = some .dir := by
  decide +kernel

/-- A file in the place of a directory passes without an error. -/
theorem C161_violated_file : createDirs [["model"]] [(["model"], .file 1)] = ([(["model"], .file 1)], .ok ()) := by decide +kernel

/-- An absolute name leads out of the trial. -/
theorem C161_violated_absolute : resolve [] (join trial.trialRoot ⟨true, ["tmp"]⟩) = ["tmp"] := by decide

theorem C161_violated : ¬ C161_full := by
  intro h
  have := h.1 [(["model"], .file 1)] _ [["model"]] (by
    apply wf_of_check
    intro e he q x hq
    simp only [List.mem_singleton] at he
    subst he
    have : q = [] := by
      cases q with
      | nil => rfl
      | cons a b => simp at hq
    subst this
    rfl) C161_violated_file ["model"] (by simp)
  revert this
  unfold Directory
  decide +kernel

end Machin.Dirs
