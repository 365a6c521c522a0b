import Verif.Media.Lemmas

/-! # Properties C130-C136: media files and trial directories -/

namespace Machin.Media

/-! ### C130: images logged under one name do not overwrite each other -/

/-- C130 in full: strictly increasing steps give pairwise different files. -/
def C130_full : Prop :=
  ∀ (name : String) (steps : List Int), steps.Pairwise (· < ·) → (logImages (fun _ => 0) (steps.map fun s => ⟨name, .object, some s⟩)).Nodup

theorem logImages_length (ks : List Call) (c : Counters) : (logImages c ks).length = ks.length := by
  induction ks generalizing c with
  | nil => rfl
  | cons k ks ih => simp [logImages, ih]

/-- C130: the file written by a call is named after the name, the step if it is given and not 0, and otherwise the number of earlier calls with the
same name, whether or not they gave a step or succeeded. -/
theorem C130_file (ks : List Call) (c : Counters) (i : Nat) (k : Call) (hk : ks[i]? = some k) :
    (logImages c ks)[i]? = some (if k.image = .unsupported then .error .value else
      .ok (k.name ++ "_" ++ (match k.step with
        | none => ((c k.name + ((ks.take i).filter fun k' : Call => k'.name = k.name).length : Nat) : Int)
        | some s => if s = 0 then ((c k.name + ((ks.take i).filter fun k' : Call => k'.name = k.name).length : Nat) : Int) else s).repr ++ k.image.ext)) := by
  induction ks generalizing c i with
  | nil => simp at hk
  | cons k0 ks ih =>
    cases i with
    | zero =>
      simp only [List.getElem?_cons_zero, Option.some.injEq] at hk
      subst hk
      simp only [logImages, List.getElem?_cons_zero, logImage, List.take_zero, List.filter_nil, List.length_nil, Nat.add_zero]
      congr 1
      cases hi : k0.image with
      | unsupported => simp
      | object =>
        simp only [reduceCtorEq, if_false, imageName, stepOr]
        rcases k0.step with _ | s
        · rfl
        · by_cases hs : s = 0
          · subst hs; rfl
          · simp [hs]
      | path e =>
        simp only [reduceCtorEq, if_false, imageName, stepOr]
        rcases k0.step with _ | s
        · rfl
        · by_cases hs : s = 0
          · subst hs; rfl
          · simp [hs]
    | succ i =>
      simp only [List.getElem?_cons_succ] at hk
      simp only [logImages, List.getElem?_cons_succ]
      rw [ih (logImage c k0).1 i hk]
      have hcount : (logImage c k0).1 k.name + ((ks.take i).filter fun k' : Call => decide (k'.name = k.name)).length =
          c k.name + (((k0 :: ks).take (i + 1)).filter fun k' : Call => decide (k'.name = k.name)).length := by
        simp only [logImage, List.take_succ_cons, List.filter_cons]
        by_cases hn : k0.name = k.name
        · simp [hn]; omega
        · simp [hn, Ne.symm hn]
      rw [hcount]

/-- C130 does not hold: the steps -1, 0 and 1 are strictly increasing, but step 0 counts as not given, so the second image is named after the counter,
1, and the third overwrites it. -/
theorem C130_violated_zero (name : String) :
    (logImages (fun _ => 0) ([-1, 0, 1].map fun s => ⟨name, .object, some s⟩))[1]? =
      (logImages (fun _ => 0) ([-1, 0, 1].map fun s => ⟨name, .object, some s⟩))[2]? ∧
    (logImages (fun _ => 0) ([-1, 0, 1].map fun s => ⟨name, .object, some s⟩))[1]? = some (.ok (name ++ "_" ++ "1" ++ ".png")) := by
  refine ⟨?_, ?_⟩
  · rw [C130_file _ _ 1 _ rfl, C130_file _ _ 2 _ rfl]; simp
  · rw [C130_file _ _ 1 _ rfl]; simp; rfl

theorem C130_violated : ¬ C130_full := by
  intro h
  have := h "a" [-1, 0, 1] (by decide)
  obtain ⟨h1, h2⟩ := C130_violated_zero "a"
  have h3 := (List.getElem?_inj (by simp [logImages_length]) this).1 h1
  omega

/-- A call that gives a step and one that does not can meet as well: step 1, then no step. -/
theorem C130_violated_mixed (name : String) :
    (logImages (fun _ => 0) [⟨name, .object, some 1⟩, ⟨name, .object, none⟩]) = List.replicate 2 (.ok (name ++ "_" ++ "1" ++ ".png")) := by
  simp only [logImages, logImage, stepOr, imageName, if_true, Img.ext]
  rfl

/-- C130, what holds: two calls that write files with the same extension write different files if their names differ, or if both give no step (or step
0), or if both give a step other than 0 and the steps differ. Missing: calls with and without a step under one name. -/
theorem C130_distinct_partial (ks : List Call) (c : Counters) (i j : Nat) (hij : i < j) (k l : Call) (hk : ks[i]? = some k) (hl : ks[j]? = some l)
    (hki : k.image ≠ .unsupported) (hext : k.image.ext = l.image.ext)
    (h : k.name ≠ l.name ∨ ((k.step = none ∨ k.step = some 0) ∧ (l.step = none ∨ l.step = some 0)) ∨
      ∃ a b, k.step = some a ∧ l.step = some b ∧ a ≠ 0 ∧ b ≠ 0 ∧ a ≠ b) :
    (logImages c ks)[i]? ≠ (logImages c ks)[j]? := by
  rw [C130_file ks c i k hk, C130_file ks c j l hl, if_neg hki, hext]
  intro heq
  by_cases hli : l.image = .unsupported
  · rw [if_pos hli] at heq; simp at heq
  rw [if_neg hli] at heq
  simp only [Option.some.injEq, Except.ok.injEq] at heq
  obtain ⟨hname, hnum⟩ := imageName_inj heq
  rcases h with h | ⟨hk0, hl0⟩ | ⟨a, b, ha, hb, ha0, hb0, hab⟩
  · exact h hname
  · have hlt : ((ks.take i).filter fun k' : Call => k'.name = k.name).length < ((ks.take j).filter fun k' : Call => k'.name = l.name).length := by
      have : ks.take j = ks.take i ++ k :: (ks.take j).drop (i + 1) := by
        have h1 : ks.take j = (ks.take j).take i ++ (ks.take j).drop i := (List.take_append_drop i _).symm
        have hi : (ks.take j)[i]? = some k := by rw [List.getElem?_take]; simp [hij, hk]
        obtain ⟨hi', hget⟩ := List.getElem?_eq_some_iff.1 hi
        rw [List.drop_eq_getElem_cons hi', hget, List.take_take, Nat.min_eq_left (Nat.le_of_lt hij)] at h1
        exact h1
      rw [this, List.filter_append, List.filter_cons, hname]
      simp
    rcases hk0 with hk0 | hk0 <;> rcases hl0 with hl0 | hl0 <;> simp only [hk0, hl0, if_true] at hnum <;>
      (have := Int.ofNat.inj hnum; rw [hname] at this hlt; omega)
  · simp only [ha, hb, ha0, hb0, if_false] at hnum
    exact hab hnum

example : logImages (fun _ => 0) [⟨"a", .object, none⟩, ⟨"b", .path ".jpg", none⟩, ⟨"a", .unsupported, none⟩, ⟨"a", .object, none⟩, ⟨"a", .path ".jpg", some 7⟩] =
    [.ok "a_0.png", .ok "b_0.jpg", .error .value, .ok "a_2.png", .ok "a_7.jpg"] := by decide

/-! ### C131: artifacts never overwrite a file -/

/-- C131: `enumerate_till_valid` ends, and gives the path asked for if nothing is there, and otherwise `root_k.ext` with the first number `k` that is
free. The file is then written there, and every path that existed keeps its content. -/
theorem C131_first_free {β : Type} (split : String → String × String) (fs : Files β) (dest : String) (content : β) :
    ∃ k p fs', logArtifact split fs dest content = some (fs', p) ∧
      (p = if k = 0 then dest else (split dest).1 ++ "_" ++ k.repr ++ (split dest).2) ∧
      fs.read p = none ∧ (∀ j, j < k → fs.read (if j = 0 then dest else (split dest).1 ++ "_" ++ j.repr ++ (split dest).2) ≠ none) ∧
      fs'.read p = some content ∧ ∀ q, q ≠ p → fs'.read q = fs.read q := by
  obtain ⟨k, hk, hf, hb⟩ := free_exists fs dest (split dest).1 (split dest).2
  have hrun := enumLoop_eq fs.has dest (split dest).1 (split dest).2 k (fs.length + 2) 0 (by omega)
    (fun j _ hj => hb j (by omega)) (by rw [Nat.zero_add]; exact hf)
  rw [Nat.zero_add] at hrun
  have hc : ∀ j, cand dest (split dest).1 (split dest).2 j = if j = 0 then dest else (split dest).1 ++ "_" ++ j.repr ++ (split dest).2 := by
    intro j; simp [cand, String.append_assoc]
  refine ⟨k, cand dest (split dest).1 (split dest).2 k, fs.write (cand dest (split dest).1 (split dest).2 k) content, ?_, hc k, ?_, ?_, ?_, ?_⟩
  · unfold logArtifact enumerateTillValid
    have h0 : cand dest (split dest).1 (split dest).2 0 = dest := rfl
    rw [h0] at hrun
    rw [hrun]; rfl
  · rw [read_none]; exact hf
  · intro j hj
    rw [← hc, Ne, read_none, hb j hj]; simp
  · rw [read_write, if_pos rfl]
  · intro q hq
    rw [read_write, if_neg hq]

/-- C131: after any number of artifacts, every file that existed before is as it was, the artifacts lie under different names, and each is found under
its name with its content. -/
theorem C131_kept {β : Type} (split : String → String × String) (arts : List (String × β)) (fs : Files β) :
    ∃ fs' ps, logArtifacts split fs arts = some (fs', ps) ∧ ps.length = arts.length ∧ ps.Nodup ∧
      (∀ p, fs.read p ≠ none → fs'.read p = fs.read p) ∧ (∀ p ∈ ps, fs.read p = none) ∧
      ∀ (i : Nat) (p : String), ps[i]? = some p → fs'.read p = (arts[i]?).map (·.2) := by
  induction arts generalizing fs with
  | nil => exact ⟨fs, [], rfl, rfl, List.nodup_nil, fun p _ => rfl, by simp, by simp⟩
  | cons a arts ih =>
    obtain ⟨d, c⟩ := a
    obtain ⟨k, p, fs1, h1, -, hfree, -, hp, hq⟩ := C131_first_free split fs d c
    obtain ⟨fs', ps, h2, hlen, hnd, hkeep, hnew, hcon⟩ := ih fs1
    have hpps : p ∉ ps := by
      intro hmem
      have := hnew p hmem
      rw [hp] at this; simp at this
    refine ⟨fs', p :: ps, ?_, by simp [hlen], List.nodup_cons.2 ⟨hpps, hnd⟩, ?_, ?_, ?_⟩
    · simp only [logArtifacts, h1, Option.bind_some, h2, Option.map_some]
    · intro q hqn
      have hne : q ≠ p := by rintro rfl; exact hqn hfree
      rw [hkeep q (by rw [hq q hne]; exact hqn), hq q hne]
    · intro q hqm
      rcases List.mem_cons.1 hqm with rfl | hqm
      · exact hfree
      · have := hnew q hqm
        have hne : q ≠ p := fun he => hpps (he ▸ ‹q ∈ ps›)
        rw [← hq q hne]; exact this
    · intro i q hi
      cases i with
      | zero =>
        simp only [List.getElem?_cons_zero, Option.some.injEq] at hi
        subst hi
        simp only [List.getElem?_cons_zero, Option.map_some]
        rw [hkeep _ (by rw [hp]; simp), hp]
      | succ i =>
        simp only [List.getElem?_cons_succ] at hi ⊢
        exact hcon i q hi

example : logArtifacts (fun _ => ("d/v", ".gif")) [("d/v.gif", 1), ("d/v_1.gif", 2)] [("d/v.gif", 3), ("d/v.gif", 4)] =
    some ([("d/v_3.gif", 4), ("d/v_2.gif", 3), ("d/v.gif", 1), ("d/v_1.gif", 2)], ["d/v_2.gif", "d/v_3.gif"]) := by decide

/-! ### C132: logging a video ends -/

/-- C132 in full: with enough rounds, `log_video` ends, whatever the frames. -/
def C132_full : Prop :=
  ∀ (write : List Nat → Option Nat) (loggers : List Bool), (∀ fr n, write fr = some n → n ≠ 0) →
    ∀ frames : List Nat, ∃ fuel, logVideo write loggers fuel frames ≠ .waiting

theorem waitLoop_zero (n : Nat) : ∀ i, waitLoop (fun _ => 0) n i = none := by
  induction n with
  | zero => intro i; rfl
  | succ n ih => intro i; simp [waitLoop, ih]

/-- C132 does not hold: without frames the file stays empty, and the loop waits for it to grow for ever. -/
theorem C132_violated_empty {P : Type} (write : List P → Option Nat) (loggers : List Bool) (fuel : Nat) :
    logVideo write loggers fuel [] = .waiting := by
  simp [logVideo, waitLoop_zero]

theorem C132_violated : ¬ C132_full := by
  intro h
  obtain ⟨fuel, hf⟩ := h (fun _ => none) [] (by simp) []
  exact hf (C132_violated_empty _ _ _)

/-- C132, what holds: with at least one frame, `log_video` gives up if the video cannot be written, and otherwise hands it to every logger with
`log_artifact` after a single wait. Missing: no frames. -/
theorem C132_ends_partial {P : Type} (write : List P → Option Nat) (loggers : List Bool) (hw : ∀ fr n, write fr = some n → n ≠ 0) (frames : List P)
    (hne : frames ≠ []) (fuel : Nat) (hf : 1 ≤ fuel) :
    logVideo write loggers fuel frames = if write frames = none then .dropped else .logged (loggers.filter id).length := by
  obtain ⟨f, rfl⟩ : ∃ f, fuel = f + 1 := ⟨fuel - 1, by omega⟩
  have he : frames.isEmpty = false := by cases frames <;> simp_all
  unfold logVideo
  rw [he]
  simp only [Bool.false_eq_true, if_false]
  cases h : write frames with
  | none => simp
  | some n => simp [waitLoop, hw _ _ h]

/-- C132: the loop by itself, for a file still being written: it stops at the first reading that repeats a size other than 0, and never before. -/
theorem C132_wait_partial (sizes : Nat → Nat) (d i : Nat) (hd : sizes (i + d) ≠ 0 ∧ sizes (i + d + 1) = sizes (i + d))
    (hb : ∀ j, j < d → ¬ (sizes (i + j) ≠ 0 ∧ sizes (i + j + 1) = sizes (i + j))) (fuel : Nat) (hf : d < fuel) :
    waitLoop sizes fuel i = some (i + d + 1) := by
  induction d generalizing i fuel with
  | zero =>
    obtain ⟨f, rfl⟩ : ∃ f, fuel = f + 1 := ⟨fuel - 1, by omega⟩
    simp only [waitLoop]
    rw [if_pos (by simpa using hd)]
  | succ d ih =>
    obtain ⟨f, rfl⟩ : ∃ f, fuel = f + 1 := ⟨fuel - 1, by omega⟩
    simp only [waitLoop]
    rw [if_neg (by simpa using hb 0 (by omega))]
    rw [ih (i + 1) (by rw [show i + 1 + d = i + (d + 1) by omega]; exact hd)
      (fun j hj => by rw [show i + 1 + j = i + (j + 1) by omega]; exact hb (j + 1) (by omega)) f (by omega)]
    rw [show i + 1 + d = i + (d + 1) by omega]

example : logVideo (fun fr : List Nat => some (fr.length * 10)) [true, false, true] 5 [1, 2] = .logged 2 := by decide
example : waitLoop (fun i => [0, 0, 5, 9, 9].getD i 9) 10 0 = some 4 := by decide

/-! ### C133: pictures keep their brightness -/

/-- C133: a frame of floats within [0, 1] becomes, entry by entry and channel by channel, the whole number below 255 times the entry; a `(H, W)` frame
gets three equal channels. -/
theorem C133_float_color (p : List (List (List Rat))) (r c k : Nat) (x : Rat) (hx : ((p[r]?.bind (·[c]?)).bind (·[k]?)) = some x)
    (h0 : 0 ≤ x) (h1 : x ≤ 1) :
    ∃ (q : List (List (List Rat))) (v : Nat), convert ⟨.floating, .color p⟩ = ⟨.integer, .color q⟩ ∧ v ≤ 255 ∧
      ((q[r]?.bind (·[c]?)).bind (·[k]?)) = some ((v : Int) : Rat) ∧ ((v : Int) : Rat) ≤ x * 255 ∧ x * 255 < (((v : Int) + 1 : Int) : Rat) := by
  have hm0 : 0 ≤ x * 255 := Rat.mul_nonneg h0 (by decide)
  have hm1 : x * 255 < 256 := by
    have : x * 255 ≤ 1 * 255 := Rat.mul_le_mul_of_nonneg_right h1 (by decide)
    exact Rat.not_le.1 fun hc => Rat.not_le.2 (by decide +kernel : (1 : Rat) * 255 < 256) (Rat.le_trans hc this)
  obtain ⟨v, hv, hb, hle, hlt⟩ := toByte_range hm0 hm1
  refine ⟨_, v, rfl, hv, ?_, hle, hlt⟩
  rw [← hb]
  simp only [List.getElem?_map]
  cases hr : p[r]? with
  | none => rw [hr] at hx; simp at hx
  | some row =>
    rw [hr] at hx
    simp only [Option.bind_some, Option.map_some, List.getElem?_map] at hx ⊢
    cases hc : row[c]? with
    | none => rw [hc] at hx; simp at hx
    | some px =>
      rw [hc] at hx
      simp only [Option.bind_some, Option.map_some, List.getElem?_map] at hx ⊢
      rw [hx]; rfl

theorem C133_float_grey (p : List (List Rat)) (r c : Nat) (x : Rat) (hx : (p[r]?.bind (·[c]?)) = some x) (h0 : 0 ≤ x) (h1 : x ≤ 1) :
    ∃ (q : List (List (List Rat))) (v : Nat), convert ⟨.floating, .grey p⟩ = ⟨.integer, .color q⟩ ∧ v ≤ 255 ∧
      (q[r]?.bind (·[c]?)) = some [((v : Int) : Rat), ((v : Int) : Rat), ((v : Int) : Rat)] ∧
      ((v : Int) : Rat) ≤ x * 255 ∧ x * 255 < (((v : Int) + 1 : Int) : Rat) := by
  have hm0 : 0 ≤ x * 255 := Rat.mul_nonneg h0 (by decide)
  have hm1 : x * 255 < 256 := by
    have : x * 255 ≤ 1 * 255 := Rat.mul_le_mul_of_nonneg_right h1 (by decide)
    exact Rat.not_le.1 fun hc => Rat.not_le.2 (by decide +kernel : (1 : Rat) * 255 < 256) (Rat.le_trans hc this)
  obtain ⟨v, hv, hb, hle, hlt⟩ := toByte_range hm0 hm1
  refine ⟨_, v, rfl, hv, ?_, hle, hlt⟩
  rw [← hb]
  simp only [List.getElem?_map]
  cases hr : p[r]? with
  | none => rw [hr] at hx; simp at hx
  | some row =>
    rw [hr] at hx
    simp only [Option.bind_some, Option.map_some, List.getElem?_map] at hx ⊢
    rw [hx]; rfl

/-- C133: a frame of whole numbers from 0 to 255 keeps its entries; a `(H, W)` frame gets three equal channels. -/
theorem C133_integer (p : List (List (List Nat))) (g : List (List Nat)) (hp : ∀ row ∈ p, ∀ px ∈ row, ∀ n ∈ px, n ≤ 255)
    (hg : ∀ row ∈ g, ∀ n ∈ row, n ≤ 255) :
    convert ⟨.integer, .color (p.map (·.map (·.map fun n : Nat => ((n : Int) : Rat))))⟩ =
      ⟨.integer, .color (p.map (·.map (·.map fun n : Nat => ((n : Int) : Rat))))⟩ ∧
    convert ⟨.integer, .grey (g.map (·.map fun n : Nat => ((n : Int) : Rat)))⟩ =
      ⟨.integer, .color (g.map (·.map fun n : Nat => [((n : Int) : Rat), ((n : Int) : Rat), ((n : Int) : Rat)]))⟩ := by
  have hb : ∀ n : Nat, n ≤ 255 → toByte ((n : Int) : Rat) = ((n : Int) : Rat) := by
    intro n hn
    unfold toByte
    rw [if_pos (Rat.intCast_nonneg.2 (by omega)), Rat.floor_intCast, Int.emod_eq_of_lt (by omega) (by omega)]
  constructor
  · simp only [convert, List.map_map, Frame.mk.injEq, Pixels.color.injEq, true_and]
    refine List.map_congr_left fun row hrow => ?_
    simp only [Function.comp, List.map_map]
    refine List.map_congr_left fun px hpx => ?_
    simp only [Function.comp, List.map_map]
    exact List.map_congr_left fun n hn => hb n (hp row hrow px hpx n hn)
  · simp only [convert, List.map_map, Frame.mk.injEq, Pixels.color.injEq, true_and]
    refine List.map_congr_left fun row hrow => ?_
    simp only [Function.comp, List.map_map]
    refine List.map_congr_left fun n hn => ?_
    simp only [Function.comp, entry, hb n (hg row hrow n hn)]
    rfl

/-- C133: the picture keeps its height and width. -/
theorem C133_size (f : Frame) (p : List (List Rat)) (c : List (List (List Rat))) :
    (f.pixels = .grey p → ∃ q, (convert f).pixels = .color q ∧ q.map List.length = p.map List.length) ∧
    (f.pixels = .color c → ∃ q, (convert f).pixels = .color q ∧ q.map (·.map List.length) = c.map (·.map List.length)) := by
  constructor
  · intro h
    refine ⟨_, by simp only [convert, h]; rfl, ?_⟩
    simp [List.map_map, Function.comp_def]
  · intro h
    refine ⟨_, by simp only [convert, h]; rfl, ?_⟩
    simp [List.map_map, Function.comp_def]

example : convert ⟨.floating, .grey [[0, 1/2], [1, 1/3]]⟩ = ⟨.integer, .color [[[0, 0, 0], [127, 127, 127]], [[255, 255, 255], [85, 85, 85]]]⟩ := by
  decide +kernel

/-! ### C134: creating a video and the frames of the caller -/

/-- C134 in full: the list given to `create_video` is not changed. -/
def C134_full : Prop := ∀ frames : List Frame, (createVideo frames).1 = frames

/-- C134 does not hold: the list of the caller afterwards holds the converted frames, for instance bytes instead of floats. -/
theorem C134_violated_float (p : Pixels) (frames : List Frame) : (createVideo (⟨.floating, p⟩ :: frames)).1 ≠ ⟨.floating, p⟩ :: frames := by
  simp [createVideo, convert]

theorem C134_violated : ¬ C134_full := fun h => C134_violated_float (.grey []) [] (h _)

/-- C134, what holds: frames that are already bytes in colour are not changed, and a second call with the list of the caller writes the same frames
again and leaves the list alone. Missing: other frames. -/
theorem C134_again_partial (frames : List Frame) :
    (createVideo (createVideo frames).1).2 = (createVideo frames).2 ∧ (createVideo (createVideo frames).1).1 = (createVideo frames).1 := by
  have hid : ∀ f, convert (convert f) = convert f := by
    intro f
    obtain ⟨k, p⟩ := f
    cases k <;> cases p <;> simp [convert, entry, toByte_toByte]
  cases frames with
  | nil => exact ⟨rfl, rfl⟩
  | cons f fs => simp [createVideo, hid]

theorem C134_bytes_partial (ps : List (List (List (List Nat)))) (h : ∀ p ∈ ps, ∀ row ∈ p, ∀ px ∈ row, ∀ n ∈ px, n ≤ 255) :
    (createVideo (ps.map fun p => ⟨.integer, .color (p.map (·.map (·.map fun n : Nat => ((n : Int) : Rat))))⟩)).1 =
      ps.map fun p => ⟨.integer, .color (p.map (·.map (·.map fun n : Nat => ((n : Int) : Rat))))⟩ := by
  unfold createVideo
  split
  · rfl
  · rw [List.map_map]
    exact List.map_congr_left fun p hp => (C133_integer p [] (h p hp) (by simp)).1

example : createVideo [⟨.floating, .grey [[1]]⟩] = ([⟨.integer, .color [[[255, 255, 255]]]⟩], some [⟨.integer, .color [[[255, 255, 255]]]⟩]) := by decide +kernel

/-! ### C135: old trials are removed, and nothing else -/

/-- C135 in full: exactly the entries whose name is a time more than the given difference ago are removed. -/
def C135_full : Prop :=
  ∀ (now diff : Int) (es : List Entry), removeOlder now diff es = (es.filter fun e => !(e.time.any fun t => decide (now - t > diff)), .ok ())

/-- C135 does not hold: an old entry that is not a directory, such as an archive or a link to a file with a time as its name, ends the call with an exception; the old
trials listed before it are removed, those behind it stay. -/
theorem C135_violated_file (now diff : Int) (es rest : List Entry) (hes : ∀ e ∈ es, ∀ t, e.time = some t → now - t > diff → e.isDir = true)
    (bad : Entry) (t : Int) (ht : bad.time = some t) (hold : now - t > diff) (hb : bad.isDir = false) :
    removeOlder now diff (es ++ bad :: rest) =
      ((es.filter fun e => !(e.time.any fun t => decide (now - t > diff))) ++ bad :: rest, .error (.other 20)) := by
  induction es with
  | nil => simp only [List.nil_append, List.filter_nil, removeOlder, ht]; rw [if_pos hold, hb]; simp
  | cons e es ih =>
    have ih := ih fun e he => hes e (by simp [he])
    have he := hes e (by simp)
    simp only [List.cons_append, removeOlder, ih]
    cases hte : e.time with
    | none => simp [hte]
    | some u =>
      by_cases ho : now - u > diff
      · simp [ho, he u hte ho, hte]
      · simp only [if_neg ho, List.filter_cons, hte, Option.any_some, decide_eq_false ho, Bool.not_false, if_true, List.cons_append]

theorem C135_violated : ¬ C135_full := by
  intro h
  have := h 10 5 [⟨"2020.zip", some 1, false⟩]
  revert this
  decide

/-- C135, what holds: if the old entries are directories, exactly they are removed; entries whose name is not a time are never touched. Missing: old
entries that are not directories. -/
theorem C135_removed_partial (now diff : Int) (es : List Entry) (hes : ∀ e ∈ es, ∀ t, e.time = some t → now - t > diff → e.isDir = true) :
    removeOlder now diff es = (es.filter fun e => !(e.time.any fun t => decide (now - t > diff)), .ok ()) := by
  induction es with
  | nil => rfl
  | cons e es ih =>
    have ih := ih fun e he => hes e (by simp [he])
    have he := hes e (by simp)
    simp only [removeOlder, ih]
    cases hte : e.time with
    | none => simp [hte]
    | some u =>
      by_cases ho : now - u > diff
      · simp [ho, he u hte ho, hte]
      · simp only [if_neg ho, List.filter_cons, hte, Option.any_some, decide_eq_false ho, Bool.not_false, if_true]

/-- C135: the age is taken from the name, which is the start of the trial cut to seconds: a trial that is old enough is removed, and one that is
removed is at most a second too young. -/
theorem C135_age_partial (now diff created : Int) :
    (now - created > diff → now - restartTime (toSecond created) > diff) ∧
    (now - restartTime (toSecond created) > diff → now - created > diff - 1000000) := by
  unfold restartTime toSecond
  constructor <;> intro h <;> omega

/-- The trial of the environment itself is not spared: one restarted from an old trial removes the directory it works in. -/
example : removeOlder (threshold 1 0 0 0) (threshold 0 1 0 0) [⟨"own", some (restartTime 0), true⟩, ⟨"new", some (threshold 0 23 30 0), true⟩] =
    ([⟨"new", some (threshold 0 23 30 0), true⟩], .ok ()) := by decide

/-- The difference is the sum of its parts, in microseconds. -/
theorem C135_threshold (d h m s : Int) : threshold d h m s = 86400000000 * d + 3600000000 * h + 60000000 * m + 1000000 * s := by
  unfold threshold; omega

/-! ### C136: every trial has its own directory -/

/-- C136 in full: environments created at different times have different trial directories. -/
def C136_full : Prop := ∀ (root : String) (a b : Int), a ≠ b → trialRoot root a ≠ trialRoot root b

/-- C136 does not hold: two environments created within the same second share one directory. -/
theorem C136_violated_second (root : String) (s : Int) (a b : Int) (ha : 0 ≤ a ∧ a < 1000000) (hb : 0 ≤ b ∧ b < 1000000) :
    trialRoot root (s * 1000000 + a) = trialRoot root (s * 1000000 + b) := by
  simp only [trialRoot, toSecond, Prod.mk.injEq, true_and]
  omega

theorem C136_violated : ¬ C136_full := fun h => h "r" 1 2 (by decide) (by decide)

/-- C136, what holds: environments created at least a second apart have different directories. Missing: less than a second. -/
theorem C136_distinct_partial (root root' : String) (a b : Int) (h : a + 1000000 ≤ b) : trialRoot root a ≠ trialRoot root' b := by
  simp only [trialRoot, toSecond, ne_eq, Prod.mk.injEq, not_and]
  omega

/-- C136: an environment restarted from a trial uses the directory of that trial. -/
theorem C136_restart_partial (root : String) (a : Int) : trialRoot root (restartTime (toSecond a)) = trialRoot root a := by
  simp only [trialRoot, toSecond, restartTime, Prod.mk.injEq, true_and]
  omega

example : trialRoot "r" 1600000 = ("r", 1) ∧ trialRoot "r" (restartTime 1) = ("r", 1) ∧ trialRoot "r" 2600000 = ("r", 2) := by decide

end Machin.Media
