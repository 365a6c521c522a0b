import Verif.Load.Lemmas
import Mathlib.Data.List.Nodup

/-! # Properties of saving and loading: C43, C44 -/

namespace Machin.Load

open Spec

variable {P : Type}

/-! ### C43: the version that is loaded -/

/-- What `prep_load_model` should do. -/
def GoodLoad (dir : Dir P) (names : List Name) (req : Option Int) (quiet : Bool) : Prop :=
  (∃ v, Chosen dir names req v ∧ (prepLoad dir names req quiet).2 = none ∧ Loaded dir v names (prepLoad dir names req quiet).1) ∨
  ((¬ ∃ v, ∀ n ∈ names, Has dir n v) ∧ prepLoad dir names req quiet = ([], if quiet then none else some .runtime))

/-- The whole property, for all directories. -/
def C43_full : Prop :=
  ∀ (dir : Dir Nat) (names : List Name) (req : Option Int) (quiet : Bool), names ≠ [] → (∀ n ∈ names, Valid n) →
    GoodLoad dir names req quiet

/-- A file `b_07.pt` counts as version 7, but `b_7.pt` is opened: loading stops with an exception after the first model has got
its parameters, although both models have version 3. -/
theorem C43_violated_zeros : prepLoad
    [(['a', '_', '3', '.', 'p', 't'], 10), (['b', '_', '3', '.', 'p', 't'], 20), (['a', '_', '7', '.', 'p', 't'], 11),
     (['b', '_', '0', '7', '.', 'p', 't'], 21)] [['a'], ['b']] none false =
    ([(['a'], 11)], some (.other 2)) := by decide

theorem C43_violated : ¬ C43_full := by
  intro h
  have hz := C43_violated_zeros
  rcases h _ [['a'], ['b']] none false (by decide) (by decide) with ⟨v, _, h2, _⟩ | ⟨_, h2⟩
  · rw [hz] at h2; cases h2
  · rw [hz] at h2; cases h2

/-- It holds for directories without such files. -/
theorem C43_load_partial (dir : Dir P) (names : List Name) (req : Option Int) (quiet : Bool) (hne : names ≠ [])
    (hv : ∀ n ∈ names, Valid n) (hc : Clean dir names) : GoodLoad dir names req quiet := by
  have hcommon : ∀ v, v ∈ common dir names ↔ ∀ n ∈ names, Has dir n v := by
    intro v
    rw [mem_common hne]
    exact ⟨fun h n hn => (versions_iff hc hn (hv n hn) v).mp (h n hn), fun h n hn => (versions_iff hc hn (hv n hn) v).mpr (h n hn)⟩
  have hauto : (∀ r : Nat, req = some (r : Int) → ¬ ∀ n ∈ names, Has dir n r) →
      prepLoad dir names req quiet = autoFind dir names quiet → GoodLoad dir names req quiet := by
    intro hreq he
    have ha : autoFind dir names quiet =
        if (common dir names).isEmpty then ([], if quiet then none else some .runtime)
        else loadAll dir (maxVersion (common dir names)) names := by
      cases names with
      | nil => exact absurd rfl hne
      | cons n ns => rfl
    by_cases hem : (common dir names).isEmpty
    · right
      refine ⟨?_, by rw [he, ha, if_pos hem]⟩
      rintro ⟨v, hv'⟩
      have := (hcommon v).mpr hv'
      rw [List.isEmpty_iff.mp hem] at this
      cases this
    · left
      have hmem := maxVersion_mem (common dir names) (by simpa using hem)
      have hall := (hcommon _).mp hmem
      refine ⟨maxVersion (common dir names), ⟨hall, Or.inr ⟨hreq, ?_⟩⟩, ?_⟩
      · intro w hw
        exact maxVersion_le _ _ ((hcommon w).mpr hw)
      · rw [he, ha, if_neg hem]
        exact loadAll_loaded names hall
  cases req with
  | none => exact hauto (by intro r h; cases h) rfl
  | some v =>
    by_cases hn : 0 ≤ v
    · obtain ⟨w, rfl⟩ := Int.eq_ofNat_of_zero_le hn
      by_cases hall : names.all (hasVersion dir (w : Int)) = true
      · have hh : ∀ n ∈ names, Has dir n w := by
          intro n hn'
          exact (versions_iff hc hn' (hv n hn') w).mp (hasVersion_nat.mp (List.all_eq_true.mp hall n hn'))
        left
        refine ⟨w, ⟨hh, Or.inl rfl⟩, ?_⟩
        have e : prepLoad dir names (some (w : Int)) quiet = loadAll dir w names := by
          unfold prepLoad
          simp only
          rw [if_pos hall]
          rfl
        rw [e]
        exact loadAll_loaded names hh
      · apply hauto
        · intro r hr hh
          have : r = w := by
            have := Option.some.inj hr
            omega
          subst this
          apply hall
          rw [List.all_eq_true]
          intro n hn'
          exact hasVersion_nat.mpr (versions_of_has (hv n hn') (hh n hn'))
        · unfold prepLoad
          simp only
          rw [if_neg (by simpa using hall)]
    · apply hauto
      · intro r hr
        have := Option.some.inj hr
        omega
      · unfold prepLoad
        simp only
        rw [if_neg]
        cases names with
        | nil => exact absurd rfl hne
        | cons n ns => simp [hasVersion_neg (Int.not_le.mp hn)]

/-- Version 7 is only there for one of the models: 3 is loaded. -/
example : prepLoad
    [(['a', '_', '3', '.', 'p', 't'], 10), (['b', '_', '3', '.', 'p', 't'], 20), (['a', '_', '7', '.', 'p', 't'], 11),
     (['b', '_', 'd', 'e', 'f', '.', 'p', 't'], 21)] [['a'], ['b']] (some 7) false =
    ([(['a'], 10), (['b'], 20)], none) := by decide

example : Clean [(['a', '_', '3', '.', 'p', 't'], 10), (['b', '_', '3', '.', 'p', 't'], 20), (['a', '_', '7', '.', 'p', 't'], 11)]
    [['a'], ['b']] := by
  intro f hf n v hp _
  simp only [PyDict.keys, List.map_cons, List.map_nil, List.mem_cons, List.not_mem_nil, or_false] at hf
  rcases hf with rfl | rfl | rfl
  · have e : parseFile ['a', '_', '3', '.', 'p', 't'] = some (['a'], 3) := by decide
    rw [e] at hp; cases hp; decide
  · have e : parseFile ['b', '_', '3', '.', 'p', 't'] = some (['b'], 3) := by decide
    rw [e] at hp; cases hp; decide
  · have e : parseFile ['a', '_', '7', '.', 'p', 't'] = some (['a'], 7) := by decide
    rw [e] at hp; cases hp; decide

/-! ### C44: save and load -/

/-- The whole property: for every version, what was saved is loaded. -/
def C44_full : Prop :=
  ∀ (dir : Dir Nat) (models : List (Name × Nat)) (networkMap : PyDict Name Name) (version : Int), models ≠ [] →
    (models.map (fun rp => savedName networkMap rp.1)).Nodup → (∀ rp ∈ models, Valid (savedName networkMap rp.1)) →
    load (save dir models networkMap version) (models.map (·.1)) networkMap version = (models, none)

/-- Version -1 (the default of `load`) is saved as `…_default.pt`, which `load` never reads: it loads an older save, -/
theorem C44_violated_default :
    load (save [(['q', '_', '5', '.', 'p', 't'], 1)] [(['q'], 2)] [] (-1)) [['q']] [] (-1) = ([(['q'], 1)], none) := by decide

/-- or fails when there is none; other negative versions likewise. -/
theorem C44_violated_negative :
    load (save [] [(['q'], 2)] [] (-1)) [['q']] [] (-1) = ([], some .runtime) ∧
    load (save [] [(['q'], 2)] [] (-2)) [['q']] [] (-2) = ([], some .runtime) := by decide

/-- A saved name with a character outside `[a-zA-Z0-9_-]` is never found either. -/
theorem C44_violated_name :
    load (save [] [(['q'], 2)] [(['q'], ['q', '.', '1'])] 3) [['q']] [(['q'], ['q', '.', '1'])] 3 = ([], some .runtime) := by decide

theorem C44_violated : ¬ C44_full := by
  intro h
  have := C44_violated_negative.1.symm.trans (h [] [(['q'], 2)] [] (-1) (by decide) (by decide) (by decide))
  cases this

theorem load_of_prep {dir : Dir P} {models : List (Name × P)} {networkMap : PyDict Name Name} {version : Int}
    (hnd : (models.map (fun rp => savedName networkMap rp.1)).Nodup)
    (h : prepLoad dir (models.map (fun rp => savedName networkMap rp.1)) (some version) false =
      (models.map (fun rp => (savedName networkMap rp.1, rp.2)), none)) :
    load dir (models.map (·.1)) networkMap version = (models, none) := by
  have hmap : (models.map (·.1)).foldl (fun d r => PyDict.set d (savedName networkMap r) r) [] =
      models.map (fun rp => (savedName networkMap rp.1, rp.1)) := by
    rw [foldl_set_distinct (savedName networkMap) (fun r => r)]
    · simp
    · simpa [PyDict.keys, Function.comp_def] using hnd
  have hkeys : PyDict.keys (models.map (fun rp => (savedName networkMap rp.1, rp.1))) =
      models.map (fun rp => savedName networkMap rp.1) := by
    simp [PyDict.keys]
  have hwf : PyDict.WF (models.map (fun rp => (savedName networkMap rp.1, rp.1))) := by
    unfold PyDict.WF; rw [hkeys]; exact hnd
  unfold load
  simp only
  rw [hmap, hkeys, h]
  simp only [Prod.mk.injEq, and_true]
  rw [List.filterMap_map]
  have : ∀ rp ∈ models, ((fun nc : Name × P => Option.map (fun r => (r, nc.2))
      (PyDict.get? (models.map (fun rp => (savedName networkMap rp.1, rp.1))) nc.1)) ∘
      (fun rp => (savedName networkMap rp.1, rp.2))) rp = some rp := by
    intro rp hrp
    simp only [Function.comp]
    rw [PyDict.get?_of_mem hwf (List.mem_map.mpr ⟨rp, hrp, rfl⟩)]
    rfl
  rw [List.filterMap_congr this, List.filterMap_some]

/-- For versions `0, 1, 2, …`, distinct and accepted names: every module gets back its parameters, whatever the directory held
before. -/
theorem C44_roundtrip_partial (dir : Dir P) (models : List (Name × P)) (networkMap : PyDict Name Name) (version : Nat)
    (hnd : (models.map (fun rp => savedName networkMap rp.1)).Nodup)
    (hv : ∀ rp ∈ models, Valid (savedName networkMap rp.1)) :
    load (save dir models networkMap version) (models.map (·.1)) networkMap version = (models, none) := by
  have hfiles : ∀ rp ∈ models, (save dir models networkMap version).get?
      (fileName (savedName networkMap rp.1) (versionStr version)) = some rp.2 := by
    intro rp hrp
    unfold save
    simp only
    rw [if_neg (by omega : ¬ ((version : Int) = -1))]
    apply get_foldl_set (fun rp : Name × P => fileName (savedName networkMap rp.1) (versionStr version)) (·.2) models dir _ rp hrp
    rw [show models.map (fun rp : Name × P => fileName (savedName networkMap rp.1) (versionStr version)) =
      (models.map (fun rp => savedName networkMap rp.1)).map (fun n => fileName n (versionStr version)) by simp]
    exact List.Nodup.map (fun a b h => fileName_inj h) hnd
  apply load_of_prep hnd
  have hall : (models.map (fun rp => savedName networkMap rp.1)).all
      (hasVersion (save dir models networkMap version) (version : Int)) = true := by
    rw [List.all_eq_true]
    intro n hn
    rcases List.mem_map.mp hn with ⟨rp, hrp, rfl⟩
    apply hasVersion_nat.mpr
    apply versions_of_has (hv rp hrp)
    unfold Has
    rw [← PyDict.get?_isSome_iff, hfiles rp hrp]
    rfl
  unfold prepLoad
  simp only
  rw [if_pos hall]
  have key : ∀ ms : List (Name × P), (∀ rp ∈ ms, rp ∈ models) →
      loadAll (save dir models networkMap version) version (ms.map (fun rp => savedName networkMap rp.1)) =
      (ms.map (fun rp => (savedName networkMap rp.1, rp.2)), none) := by
    intro ms
    induction ms with
    | nil => intro _; rfl
    | cons rp ms ih =>
      intro h
      rw [List.map_cons]
      unfold loadAll
      rw [hfiles rp (h rp (by simp))]
      simp only
      rw [ih (fun x hx => h x (List.mem_cons_of_mem _ hx))]
      rfl
  exact key models (fun _ h => h)

example : load (save [(['q', '_', '5', '.', 'p', 't'], 9)] [(['q'], 2), (['p'], 3)] [(['q'], ['x', '-', '1'])] 12)
    [['q'], ['p']] [(['q'], ['x', '-', '1'])] 12 = ([(['q'], 2), (['p'], 3)], none) := by decide

end Machin.Load
