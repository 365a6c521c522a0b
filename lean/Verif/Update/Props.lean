import Verif.Update.Model
import Mathlib.Algebra.Order.Field.Rat
import Mathlib.Data.List.Induction
import Mathlib.Tactic.Ring
import Mathlib.Tactic.Linarith
import Mathlib.Tactic.Positivity

/-! # C55, C56, C73, C74: target networks, `load`, configurations -/

namespace Machin.Update

/-! ### C55 -/

/-- Iterated soft updates from a fixed online network. -/
def softN {R : Type} [CommRing R] (target source : Net R) (rate : R) : Nat → Net R
  | 0 => target
  | k + 1 => softUpdate (softN target source rate k) source rate

theorem length_zipInto {R : Type} (f : R → R → R) (ts ss : List R) : (zipInto f ts ss).length = ts.length := by
  induction ts generalizing ss with
  | nil => rfl
  | cons t ts ih => cases ss <;> simp [zipInto, ih]

theorem zipInto_get {R : Type} (f : R → R → R) (ts ss : List R) (i : Nat) (t s : R) (ht : ts[i]? = some t) (hs : ss[i]? = some s) :
    (zipInto f ts ss)[i]? = some (f t s) := by
  induction ts generalizing ss i with
  | nil => simp at ht
  | cons a ts ih =>
    cases ss with
    | nil => simp at hs
    | cons b ss =>
      cases i with
      | zero => simp at ht hs; simp [zipInto, ht, hs]
      | succ i => simp at ht hs; simp [zipInto, ih ss i ht hs]

theorem zipInto_copy {R : Type} (ts ss : List R) (h : ts.length = ss.length) : zipInto (fun _ s => s) ts ss = ss := by
  induction ts generalizing ss with
  | nil => cases ss with
    | nil => rfl
    | cons _ _ => simp at h
  | cons t ts ih =>
    cases ss with
    | nil => simp at h
    | cons s ss => simp [zipInto, ih ss (by simpa using h)]

/-- After `k` soft updates with rate `tau` from a fixed online network every parameter of the target is
`(1 - tau)^k * old + (1 - (1 - tau)^k) * online`. -/
theorem C55_soft {R : Type} [CommRing R] (target source : Net R) (tau : R) (k i : Nat) (t s : R)
    (ht : target.params[i]? = some t) (hs : source.params[i]? = some s) :
    (softN target source tau k).params[i]? = some ((1 - tau) ^ k * t + (1 - (1 - tau) ^ k) * s) := by
  induction k with
  | zero => simp [softN, ht]
  | succ k ih =>
    unfold softN softUpdate
    rw [zipInto_get _ _ _ _ _ _ ih hs]
    congr 1
    ring

example : (softN (⟨[8, 0], []⟩ : Net Rat) ⟨[0, 16], []⟩ (1 / 2) 3).params = [1, 14] := by decide +kernel

/-- With a rate in `[0, 1]` a soft update keeps every parameter between its old value and the online one, so any sequence of
updates from online parameters in `[lo, hi]` keeps a target that started in `[lo, hi]` there. -/
theorem C55_between (tau : Rat) (h0 : 0 ≤ tau) (h1 : tau ≤ 1) (lo hi : Rat) (i : Nat) (sources : List (Net Rat)) (target : Net Rat)
    (hs : ∀ src ∈ sources, ∃ s, src.params[i]? = some s ∧ lo ≤ s ∧ s ≤ hi)
    (ht : ∃ t, target.params[i]? = some t ∧ lo ≤ t ∧ t ≤ hi) :
    ∃ t, (sources.foldl (fun t s => softUpdate t s tau) target).params[i]? = some t ∧ lo ≤ t ∧ t ≤ hi := by
  induction sources generalizing target with
  | nil => exact ht
  | cons src sources ih =>
    apply ih _ (fun x hx => hs x (by simp [hx]))
    obtain ⟨t, t1, t2, t3⟩ := ht
    obtain ⟨s, s1, s2, s3⟩ := hs src (by simp)
    refine ⟨_, zipInto_get _ _ _ _ _ _ t1 s1, ?_, ?_⟩
    · nlinarith
    · nlinarith

example : ∀ src ∈ [(⟨[4], []⟩ : Net Rat), ⟨[1], []⟩], ∃ s, src.params[0]? = some s ∧ (0 : Rat) ≤ s ∧ s ≤ 5 := by
  intro src hsrc
  simp at hsrc
  rcases hsrc with rfl | rfl
  · exact ⟨4, rfl, by norm_num, by norm_num⟩
  · exact ⟨1, rfl, by norm_num, by norm_num⟩

/-- Same architecture. -/
def SameShape {R : Type} (a b : Net R) : Prop := a.params.length = b.params.length ∧ a.buffers.length = b.buffers.length

theorem hardUpdate_eq {R : Type} (a b : Net R) (h : SameShape a b) : hardUpdate a b = b := by
  unfold hardUpdate
  rw [zipInto_copy _ _ h.1, zipInto_copy _ _ h.2]

/-- C55, hard updates, full statement: a frame with a target network and `update_steps = n` never raises, and after `k` updates the
target is the online network as of the last multiple of `n` (the initial one before). -/
def C55_full : Prop :=
  ∀ (mode : Mode) (n : Nat) (q qt : Net Rat) (qs : List (Net Rat)), mode ≠ .vanilla → 1 ≤ n → SameShape q qt →
    (∀ p ∈ qs, SameShape p qt) → ∀ f, Frame.new mode none (some n) q qt = .ok f →
    ∃ f', updates f qs = (f', .ok ()) ∧ (qt :: qs)[n * (qs.length / n)]? = some f'.qnetTarget

theorem updates_append {R : Type} [CommRing R] (f : Frame R) (as bs : List (Net R)) (f' : Frame R) (h : updates f as = (f', .ok ())) :
    updates f (as ++ bs) = updates f' bs := by
  induction as generalizing f with
  | nil => simp only [updates] at h; cases h; rfl
  | cons a as ih =>
    simp only [updates, List.cons_append] at h ⊢
    cases hu : update f a true with
    | mk g r =>
      rw [hu] at h
      cases r with
      | error e => simp at h
      | ok u => simp only at h ⊢; exact ih g h

/-- The hard update schedule in mode `double` (and in all other algorithms that use the counting scheme). Missing: mode
`fixed_target`, where it fails (`C55_violated`). -/
theorem C55_schedule_partial {R : Type} [CommRing R] (n : Nat) (hn : 1 ≤ n) (q qt : Net R) (qs : List (Net R)) (hq : SameShape q qt)
    (hqs : ∀ p ∈ qs, SameShape p qt) :
    ∃ f f', Frame.new .double none (some n) q qt = .ok f ∧ f.online = qt ∧ updates f qs = (f', .ok ()) ∧
      (qt :: qs)[n * (qs.length / n)]? = some f'.qnetTarget ∧ f'.online = (qt :: qs).getLast (by simp) := by
  refine ⟨⟨.double, none, some n, 0, qt, qt⟩, ?_⟩
  have key : ∃ f', updates ⟨.double, none, some n, 0, qt, qt⟩ qs = (f', .ok ()) ∧ f'.counter = qs.length ∧ f'.mode = .double ∧
      f'.rate = none ∧ f'.steps = some n ∧ SameShape f'.target qt ∧ (qt :: qs)[n * (qs.length / n)]? = some f'.target ∧
      f'.online = (qt :: qs).getLast (by simp) := by
    induction qs using List.reverseRecOn with
    | nil => exact ⟨_, rfl, rfl, rfl, rfl, rfl, ⟨rfl, rfl⟩, by simp, rfl⟩
    | append_singleton qs p ih =>
      obtain ⟨g, g1, g2, g3, g4, g5, g6, g7, g8⟩ := ih (fun x hx => hqs x (by simp [hx]))
      have hp := hqs p (by simp)
      have hpt : SameShape g.target p := ⟨g6.1.trans hp.1.symm, g6.2.trans hp.2.symm⟩
      obtain ⟨n', rfl⟩ : ∃ n', n = n' + 1 := ⟨n - 1, by omega⟩
      have hu : update g p true = (if (qs.length + 1) % (n' + 1) = 0 then
          { g with online := p, counter := qs.length + 1, target := p } else
          { g with online := p, counter := qs.length + 1 }, .ok ()) := by
        unfold update countedUpdate
        simp only [g3, g4, g5, if_true, g2]
        split
        · rw [hardUpdate_eq _ _ hpt]
        · rfl
      rw [updates_append _ _ _ _ g1]
      simp only [updates, hu]
      refine ⟨_, rfl, ?_⟩
      by_cases hm : (qs.length + 1) % (n' + 1) = 0
      · rw [if_pos hm]
        refine ⟨by simp, g3, g4, g5, hp, ?_, by simp⟩
        have : (n' + 1) * ((qs ++ [p]).length / (n' + 1)) = qs.length + 1 := by
          have := Nat.div_add_mod (qs.length + 1) (n' + 1)
          simp only [List.length_append, List.length_singleton]
          omega
        rw [this]
        simp
      · rw [if_neg hm]
        refine ⟨by simp, g3, g4, g5, g6, ?_, by simp⟩
        have hdiv : (qs ++ [p]).length / (n' + 1) = qs.length / (n' + 1) := by
          simp only [List.length_append, List.length_singleton]
          rw [Nat.succ_div, if_neg]
          · omega
          · intro hd
            exact hm (Nat.mod_eq_zero_of_dvd hd)
        rw [hdiv, ← List.cons_append, List.getElem?_append_left]
        · exact g7
        · have := Nat.mul_div_le qs.length (n' + 1)
          simp only [List.length_cons]
          omega
  obtain ⟨f', h1, -, h3, -, -, -, h7, h8⟩ := key
  refine ⟨f', ?_, rfl, h1, ?_, h8⟩
  · unfold Frame.new
    simp [hardUpdate_eq _ _ hq]
  · unfold Frame.qnetTarget
    rw [if_neg (by rw [h3]; decide)]
    exact h7

/-- Period 2, three updates: the target is the online network of the second one. -/
example : (updates (⟨.double, none, some 2, 0, ⟨[0], [0]⟩, ⟨[0], [0]⟩⟩ : Frame Int) [⟨[1], [1]⟩, ⟨[2], [2]⟩, ⟨[3], [3]⟩]).1.target =
    ⟨[2], [2]⟩ := by decide

/-- In mode `fixed_target` with `update_steps` the first update that touches the target raises `TypeError`, whatever the
networks. -/
theorem C55_violated_fixed_target {R : Type} [CommRing R] (n counter : Nat) (q qt p : Net R) :
    (update ⟨.fixedTarget, none, some n, counter, q, qt⟩ p true).2 = .error .type := rfl

theorem C55_violated : ¬ C55_full := by
  intro h
  obtain ⟨f', h1, -⟩ := h .fixedTarget 1 ⟨[], []⟩ ⟨[], []⟩ [⟨[], []⟩] (by decide) (by decide) ⟨rfl, rfl⟩
    (by intro p hp; simp at hp; subst hp; exact ⟨rfl, rfl⟩) _ rfl
  simp [updates, update] at h1

/-! ### C56 -/

theorem get?_merge {V : Type} (a b : PyDict String V) (hb : b.WF) (k : String) :
    (merge a b).get? k = match b.get? k with | some v => some v | none => a.get? k := by
  unfold merge
  induction b generalizing a with
  | nil => rfl
  | cons p b ih =>
    have hnd : p.1 ∉ b.map (·.1) ∧ (b.map (·.1)).Nodup := by
      have : (p.1 :: b.map (·.1)).Nodup := hb
      exact List.nodup_cons.mp this
    rw [List.foldl_cons, ih _ hnd.2, PyDict.get?_cons]
    by_cases hk : p.1 = k
    · subst hk
      rw [if_pos rfl]
      have : PyDict.get? b p.1 = none := (PyDict.get?_eq_none_iff _ _).mpr hnd.1
      rw [this, PyDict.get?_set_self]
    · rw [if_neg hk, PyDict.get?_set_ne _ (Ne.symm hk)]

/-- The value of a setting of the user: what a correct generation must return for key `k`. -/
def wanted {V : Type} (user : Option (PyDict String V)) (defaults : PyDict String V) (k : String) : Option V :=
  match (user.getD []).get? k with
  | some v => some v
  | none => defaults.get? k

/-- C56, full statement. -/
def C56_full : Prop :=
  ∀ (V : Type) (frame : V) (defaults : PyDict String V) (c : Conf V), defaults.WF →
    ∃ c' d, generateConfig frame defaults c = .ok c' ∧ c'.frameConfig = some d ∧ ∀ k, d.get? k = wanted c.frameConfig defaults k

/-- What is returned: every default is present; user settings survive exactly under keys that are not among the defaults. Missing:
user settings under keys among the defaults are overwritten (`C56_violated_overwrites`). -/
theorem C56_partial {V : Type} (frame : V) (defaults : PyDict String V) (hd : defaults.WF) (c : Conf V)
    (hc : c.isObj = false ∨ c.frameConfig ≠ none) :
    ∃ c' d, generateConfig frame defaults c = .ok c' ∧ c'.frameConfig = some d ∧ c'.rest.get? "frame" = some frame ∧
      (∀ k, k ≠ "frame" → c'.rest.get? k = c.rest.get? k) ∧
      (∀ k v, defaults.get? k = some v → d.get? k = some v) ∧
      (∀ k, defaults.get? k = none → d.get? k = (c.frameConfig.getD []).get? k) := by
  obtain ⟨isObj, fc, rest⟩ := c
  cases fc with
  | none =>
    rcases hc with hc | hc
    · simp only at hc
      subst hc
      refine ⟨⟨false, some defaults, rest.set "frame" frame⟩, defaults, rfl, rfl, PyDict.get?_set_self _ _ _,
        fun k hk => PyDict.get?_set_ne _ hk _, fun k v h => h, ?_⟩
      intro k hk
      rw [hk]
      rfl
    · exact absurd rfl hc
  | some u =>
    refine ⟨⟨isObj, some (merge u defaults), rest.set "frame" frame⟩, merge u defaults, ?_, rfl, PyDict.get?_set_self _ _ _,
        fun k hk => PyDict.get?_set_ne _ hk _, ?_, ?_⟩
    · unfold generateConfig lacksFrameConfig
      cases isObj <;> rfl
    · intro k v h
      rw [get?_merge _ _ hd, h]
    · intro k h
      rw [get?_merge _ _ hd, h]
      rfl

/-- Two defaults, one of which the user also sets. -/
abbrev exDefaults : PyDict String Nat := [("batch_size", 100), ("mode", 2)]

example : exDefaults.WF ∧ (⟨false, some [("batch_size", 7), ("mine", 5)], []⟩ : Conf Nat).isObj = false ∧
    ((generateConfig 9 exDefaults ⟨false, some [("batch_size", 7), ("mine", 5)], []⟩).toOption.bind (·.frameConfig)) =
      some [("batch_size", 100), ("mine", 5), ("mode", 2)] := by
  refine ⟨by unfold PyDict.WF; decide, rfl, by decide⟩

/-- Every setting of the user that is among the defaults is replaced by the default. -/
theorem C56_violated_overwrites {V : Type} (frame : V) (defaults u : PyDict String V) (hd : defaults.WF) (isObj : Bool)
    (rest : PyDict String V) (k : String) (v w : V) (_huser : u.get? k = some w) (hdef : defaults.get? k = some v) :
    ∃ c' d, generateConfig frame defaults ⟨isObj, some u, rest⟩ = .ok c' ∧ c'.frameConfig = some d ∧ d.get? k = some v := by
  obtain ⟨c', d, h1, h2, -, -, h3, -⟩ := C56_partial frame defaults hd ⟨isObj, some u, rest⟩ (Or.inr (by simp))
  exact ⟨c', d, h1, h2, h3 k v hdef⟩

/-- A `Config` object without `frame_config` makes `generate_config` raise `TypeError`. -/
theorem C56_violated_config_object {V : Type} (frame : V) (defaults rest : PyDict String V) :
    generateConfig frame defaults ⟨true, none, rest⟩ = .error .type := rfl

theorem C56_violated : ¬ C56_full := by
  intro h
  obtain ⟨c', d, h1, h2, h3⟩ := h Nat 9 exDefaults ⟨false, some [("batch_size", 7)], []⟩ (by unfold PyDict.WF; decide)
  have h4 := h3 "batch_size"
  have e : generateConfig 9 exDefaults ⟨false, some [("batch_size", 7)], []⟩ =
      .ok ⟨false, some [("batch_size", 100), ("mode", 2)], [("frame", 9)]⟩ := by rfl
  rw [e] at h1
  cases h1
  cases h2
  revert h4
  decide

/-- The derived algorithms overwrite the user's values of their own settings in the same way. -/
theorem C56_derived_partial {V : Type} (frame : V) (defaults extra : PyDict String V) (hd : defaults.WF) (he : extra.WF) (c : Conf V)
    (hc : c.isObj = false ∨ c.frameConfig ≠ none) :
    ∃ c' d, generateDerived frame defaults extra c = .ok c' ∧ c'.frameConfig = some d ∧
      (∀ k v, extra.get? k = some v → d.get? k = some v) ∧
      (∀ k v, extra.get? k = none → defaults.get? k = some v → d.get? k = some v) ∧
      (∀ k, extra.get? k = none → defaults.get? k = none → d.get? k = (c.frameConfig.getD []).get? k) := by
  obtain ⟨c', d, h1, h2, -, -, h3, h4⟩ := C56_partial frame defaults hd c hc
  refine ⟨{ c' with frameConfig := some (merge d extra), rest := c'.rest.set "frame" frame }, merge d extra, ?_, rfl, ?_, ?_, ?_⟩
  · unfold generateDerived
    rw [h1]
    simp [h2]
  · intro k v h
    rw [get?_merge _ _ he, h]
  · intro k v h h'
    rw [get?_merge _ _ he, h]
    exact h3 k v h'
  · intro k h h'
    rw [get?_merge _ _ he, h]
    exact h4 k h'

/-- `fill_default` does what `generate_config` is documented to do: it keeps the user's settings and fills in the others. -/
theorem C56_fill_default {V : Type} (defaults u : PyDict String V) (k : String) (hd : defaults.WF) :
    (fillDefault defaults u).get? k = wanted (some u) defaults k := by
  unfold fillDefault wanted
  simp only [Option.getD_some]
  induction defaults generalizing u with
  | nil =>
    simp only [List.foldl_nil]
    cases PyDict.get? u k <;> rfl
  | cons p ds ih =>
    have hnd : p.1 ∉ ds.map (·.1) ∧ (ds.map (·.1)).Nodup := by
      have : (p.1 :: ds.map (·.1)).Nodup := hd
      exact List.nodup_cons.mp this
    rw [List.foldl_cons, ih _ hnd.2, PyDict.get?_cons]
    by_cases hk : p.1 = k
    · subst hk
      by_cases hm : PyDict.mem u p.1 = true
      · rw [if_pos hm]
        have : (PyDict.get? u p.1).isSome := (PyDict.get?_isSome_iff _ _).mpr ((PyDict.mem_iff _ _).mp hm)
        obtain ⟨v, hv⟩ := Option.isSome_iff_exists.mp this
        rw [hv]
      · rw [if_neg hm, PyDict.get?_set_self]
        have : PyDict.get? u p.1 = none := (PyDict.get?_eq_none_iff _ _).mpr (fun h => hm ((PyDict.mem_iff _ _).mpr h))
        rw [this]
        simp
    · rw [if_neg hk]
      by_cases hm : PyDict.mem u p.1 = true
      · rw [if_pos hm]
      · rw [if_neg hm, PyDict.get?_set_ne _ (Ne.symm hk)]

example : fillDefault exDefaults [("batch_size", 7), ("mine", 5)] = [("batch_size", 7), ("mine", 5), ("mode", 2)] := by decide

/-! ### C73 -/

/-- C73, full statement, for the algorithms with two critics. -/
def C73_full : Prop :=
  ∀ load : Critics Int → Net Int → Net Int → Critics Int, load = sacLoad ∨ load = td3Load →
    ∀ (c : Critics Int) (ct c2t : Net Int), SameShape c.critic ct → SameShape c.critic2 c2t →
      (load c ct c2t).critic = ct ∧ (load c ct c2t).critic2 = c2t

/-- `TD3.load` makes both critics equal to their restored targets. -/
theorem C73_td3_partial {R : Type} (c : Critics R) (ct c2t : Net R) (h1 : SameShape c.critic ct) (h2 : SameShape c.critic2 c2t) :
    (td3Load c ct c2t).critic = ct ∧ (td3Load c ct c2t).critic2 = c2t :=
  ⟨hardUpdate_eq _ _ h1, hardUpdate_eq _ _ h2⟩

example : (td3Load (⟨⟨[0], []⟩, ⟨[0], []⟩, ⟨[0], []⟩, ⟨[0], []⟩⟩ : Critics Int) ⟨[1], []⟩ ⟨[2], []⟩).critic2 = ⟨[2], []⟩ := by decide

/-- `SAC.load` copies the second target into the first critic and leaves the second critic untouched. Missing: the property itself,
which fails (`C73_violated`). -/
theorem C73_sac_partial {R : Type} (c : Critics R) (ct c2t : Net R) (h1 : SameShape c.critic ct) (h2 : SameShape ct c2t) :
    (sacLoad c ct c2t).critic = c2t ∧ (sacLoad c ct c2t).critic2 = c.critic2 := by
  refine ⟨?_, rfl⟩
  unfold sacLoad
  simp only
  rw [hardUpdate_eq _ _ h1, hardUpdate_eq _ _ h2]

example : (sacLoad (⟨⟨[0], []⟩, ⟨[0], []⟩, ⟨[0], []⟩, ⟨[0], []⟩⟩ : Critics Int) ⟨[1], []⟩ ⟨[2], []⟩).critic = ⟨[2], []⟩ := by decide

theorem C73_violated : ¬ C73_full := by
  intro h
  have := (h sacLoad (Or.inl rfl) ⟨⟨[0], []⟩, ⟨[0], []⟩, ⟨[0], []⟩, ⟨[0], []⟩⟩ ⟨[1], []⟩ ⟨[2], []⟩ ⟨rfl, rfl⟩ ⟨rfl, rfl⟩).1
  revert this
  decide

/-! ### C74 -/

/-- C74, full statement: an available environment yields its configuration. -/
def C74_full : Prop :=
  ∀ (V : Type) (generate : PyDict String V → PyDict String V) (config : PyDict String V),
    generateEnvConfig (.full generate) config = .ok (generate config)

/-- It never does: `generate_env_config` raises for every environment and every configuration. The available environments are the
modules with both functions; for them, and for modules with `launch` only, the exception is a `TypeError`; for all other names it
is the `ValueError` that names without environment are to give. -/
theorem C74_never_partial {V : Type} (m : EnvModule V) (config : PyDict String V) :
    (available m = true ↔ ∃ g, m = .full g) ∧
    generateEnvConfig m config = .error (match m with | .full _ | .noGenerate => .type | .absent | .noLaunch => .value) := by
  cases m <;> simp [available, generateEnvConfig]

example : available (.full (fun d => d) : EnvModule Nat) = true := rfl

theorem C74_violated : ¬ C74_full := by
  intro h
  have := h Nat id []
  cases this

end Machin.Update
