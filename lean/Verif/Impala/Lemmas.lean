import Verif.Impala.Spec
import Verif.Replay.Lemmas
import Mathlib.Data.List.Forall2
import Mathlib.Tactic.Ring

/-! # Lemmas for IMPALA -/

namespace Machin.Impala

open Replay Replay.Spec

/-- An accepted episode with its lengths. -/
def stamp {σ : Type} : List σ → List (Step σ)
  | [] => []
  | b :: bs => ⟨b, (b :: bs).length⟩ :: bs.map fun b => ⟨b, 0⟩

@[simp] theorem length_stamp {σ : Type} (l : List σ) : (stamp l).length = l.length := by
  cases l <;> simp [stamp]

theorem body_stamp {σ : Type} (l : List σ) : (stamp l).map (·.body) = l := by
  cases l <;> simp [stamp, Function.comp_def]

theorem lens_stamp {σ : Type} (l : List σ) (h : l ≠ []) : ((stamp l).map (·.epLen)).filter (· ≠ 0) = [l.length] := by
  cases l with
  | nil => exact absurd rfl h
  | cons b bs =>
    simp only [stamp, List.map_cons, List.map_map, Function.comp_def]
    rw [List.filter_cons_of_pos (by simp)]
    congr 1
    rw [List.filter_eq_nil_iff]
    intro a ha
    simp at ha
    simp [ha]

theorem lens_stamps {σ : Type} (ls : List (List σ)) (h : ∀ l ∈ ls, l ≠ []) :
    (((ls.map stamp).flatten).map (·.epLen)).filter (· ≠ 0) = ls.map List.length := by
  induction ls with
  | nil => rfl
  | cons l ls ih =>
    rw [List.map_cons, List.flatten_cons, List.map_append, List.filter_append, lens_stamp l (h l (by simp)),
      ih (fun l hl => h l (by simp [hl]))]
    rfl

theorem keep_map_len {α β : Type} (f : List α → List β) (hf : ∀ l, (f l).length = l.length) (n : Nat)
    (es : List (List α)) : keep n (es.map f) = (keep n es).map f := by
  induction es with
  | nil => rfl
  | cons e es ih =>
    have : ∀ ls : List (List α), ((ls.map f).flatten).length = ls.flatten.length := by
      intro ls
      induction ls with
      | nil => rfl
      | cons l ls ih => simp only [List.map_cons, List.flatten_cons, List.length_append, hf, ih]
    have h1 := this (e :: es)
    rw [List.map_cons] at h1
    rw [List.map_cons]
    unfold keep
    rw [h1]
    split
    · rfl
    · exact ih

theorem setZero_spec {ι : Type} (l : List (Item ι)) :
    (l.all Spec.canCarry = true ∧ setZero l = .ok (l.map fun i => (i.content, 0))) ∨
    (l.all Spec.canCarry = false ∧ ∃ e, setZero l = .error e) := by
  induction l with
  | nil => left; exact ⟨rfl, rfl⟩
  | cons i l ih =>
    have : (Spec.canCarry i = true ∧ i.setLen 0 = .ok (i.content, 0)) ∨ (Spec.canCarry i = false ∧ i.setLen 0 = .error .runtime) := by
      match i with
      | .dict x => left; exact ⟨rfl, rfl⟩
      | .trans x true => left; exact ⟨rfl, rfl⟩
      | .trans x false => right; exact ⟨rfl, rfl⟩
    rcases this with ⟨h1, h2⟩ | ⟨h1, h2⟩
    · rcases ih with ⟨h3, h4⟩ | ⟨h3, e, h4⟩
      · left
        refine ⟨by simp [h1]; simpa using h3, ?_⟩
        simp only [setZero, h2, h4, List.map_cons]
      · right
        refine ⟨by simp only [List.all_cons, h3, Bool.and_false], e, ?_⟩
        simp only [setZero, h2, h4]
    · right
      refine ⟨by simp only [List.all_cons, h1, Bool.false_and], .runtime, ?_⟩
      simp only [setZero, h2]

theorem setLen_spec {ι : Type} (i : Item ι) (n : Nat) :
    (Spec.canCarry i = true ∧ i.setLen n = .ok (i.content, n)) ∨ (Spec.canCarry i = false ∧ i.setLen n = .error .runtime) := by
  match i with
  | .dict x => left; exact ⟨rfl, rfl⟩
  | .trans x true => left; exact ⟨rfl, rfl⟩
  | .trans x false => right; exact ⟨rfl, rfl⟩

theorem mapM_convStep {ι σ : Type} (conv : ι → Except Err σ) (ys : List (ι × Nat)) :
    ys.mapM (convStep conv) = match (ys.map (·.1)).mapM conv with
      | .ok bs => .ok (bs.zipWith Step.mk (ys.map (·.2)))
      | .error e => .error e := by
  induction ys with
  | nil => rfl
  | cons y ys ih =>
    rw [List.mapM_cons, ih, List.map_cons, List.mapM_cons]
    unfold convStep
    cases conv y.1 with
    | error e => rfl
    | ok b =>
      cases (ys.map (·.1)).mapM conv with
      | error e => rfl
      | ok bs => rfl

theorem zipWith_zero {σ ι : Type} (bs : List σ) (is : List ι) (h : bs.length = is.length) :
    bs.zipWith Step.mk (is.map fun _ => 0) = bs.map fun b => ⟨b, 0⟩ := by
  induction bs generalizing is with
  | nil => rfl
  | cons b bs ih =>
    cases is with
    | nil => simp at h
    | cons i is =>
      simp only [List.length_cons, Nat.add_right_cancel_iff] at h
      simp only [List.map_cons, List.zipWith_cons_cons, ih is h]

theorem accepted_single {ι σ : Type} (conv : ι → Except Err σ) (first : Item ι) (rest : List (Item ι)) :
    Replay.Spec.accepted (convStep conv) [(first.content, (first :: rest).length) :: rest.map fun i => (i.content, 0)] =
      (match (first :: rest).mapM fun i => conv i.content with | .ok bs => [stamp bs] | .error _ => []) := by
  rw [accepted_cons, if_neg (by simp), mapM_convStep]
  have : ((first.content, (first :: rest).length) :: rest.map fun i => (i.content, 0)).map (·.1) =
      (first :: rest).map Item.content := by simp [Function.comp_def]
  rw [this]
  have e : ((first :: rest).map Item.content).mapM conv = (first :: rest).mapM fun i => conv i.content := by
    generalize first :: rest = l
    induction l with
    | nil => rfl
    | cons i l ih => rw [List.map_cons, List.mapM_cons, List.mapM_cons, ih]
  rw [e]
  cases hc : (first :: rest).mapM fun i => conv i.content with
  | error e => rfl
  | ok bs =>
    have hl := mapM_length _ _ _ hc
    cases bs with
    | nil => simp at hl
    | cons b bs =>
      simp only [List.map_cons, List.map_map, Function.comp_def, List.zipWith_cons_cons, stamp]
      simp only [List.length_cons] at hl
      rw [zipWith_zero bs rest (by omega)]
      simp only [List.length_cons]
      rw [hl]
      rfl

theorem acceptedI_cons {ι σ : Type} (conv : ι → Except Err σ) (ep : List (Item ι)) (h : List (List (Item ι))) :
    Spec.accepted conv (ep :: h) = Spec.accepted conv [ep] ++ Spec.accepted conv h := by
  unfold Spec.accepted
  rw [← List.filterMap_append]
  rfl

theorem run_inv {ι σ : Type} {N : Nat} (conv : ι → Except Err σ) (h : List (List (Item ι))) :
    ∀ (b : Buffer (Step σ)) (hist : List (List (Step σ))), BInv N hist b → (∀ ep ∈ h, ep.length ≤ N) →
      BInv N (hist ++ (Spec.accepted conv h).map stamp) (run conv b h) := by
  induction h with
  | nil => intro b hist hb _; simpa [run, Spec.accepted] using hb
  | cons ep h ih =>
    intro b hist hb hle
    have hrun : run conv b (ep :: h) = run conv (storeEpisode conv b ep).1 h := rfl
    rw [hrun, acceptedI_cons, List.map_append, ← List.append_assoc]
    apply ih _ _ _ (fun e he => hle e (by simp [he]))
    have hlen := hle ep (by simp)
    cases ep with
    | nil => simpa [Spec.accepted, storeEpisode] using hb
    | cons first rest =>
      unfold storeEpisode
      rcases setLen_spec first (first :: rest).length with ⟨h1, h2⟩ | ⟨h1, h2⟩
      · rcases setZero_spec rest with ⟨h3, h4⟩ | ⟨h3, e, h4⟩
        · simp only [h2, h4]
          have hall : (first :: rest).all Spec.canCarry = true := by simp only [List.all_cons, h1, h3]; rfl
          have key := Replay.run_inv (convStep conv)
            [(first.content, (first :: rest).length) :: rest.map fun i => (i.content, 0)] b hist hb
            (by intro ep hep; simp at hep; subst hep; simpa using hlen)
          rw [accepted_single] at key
          have e2 : (Spec.accepted conv [first :: rest]).map stamp =
              (match (first :: rest).mapM fun i => conv i.content with | .ok bs => [stamp bs] | .error _ => []) := by
            unfold Spec.accepted
            rw [List.filterMap_cons, if_neg (by simp), if_pos hall]
            cases (first :: rest).mapM fun i => conv i.content with
            | error e => rfl
            | ok bs => rfl
          rw [e2]
          exact key
        · simp only [h2, h4]
          have hall : (first :: rest).all Spec.canCarry = false := by simp only [List.all_cons, h3, Bool.and_false]
          have e2 : Spec.accepted conv [first :: rest] = [] := by
            unfold Spec.accepted
            rw [List.filterMap_cons, if_neg (by simp), if_neg (by rw [hall]; simp)]
            rfl
          rw [e2]
          simpa using hb
      · simp only [h2]
        have hall : (first :: rest).all Spec.canCarry = false := by simp only [List.all_cons, h1, Bool.false_and]
        have e2 : Spec.accepted conv [first :: rest] = [] := by
          unfold Spec.accepted
          rw [List.filterMap_cons, if_neg (by simp), if_neg (by rw [hall]; simp)]
          rfl
        rw [e2]
        simpa using hb

theorem accepted_ne_nil {ι σ : Type} (conv : ι → Except Err σ) (h : List (List (Item ι))) :
    ∀ e ∈ Spec.accepted conv h, e ≠ [] := by
  intro e he
  unfold Spec.accepted at he
  rw [List.mem_filterMap] at he
  obtain ⟨ep, -, hep⟩ := he
  split at hep
  · cases hep
  · rename_i h0
    split at hep
    · cases hc : ep.mapM fun i => conv i.content with
      | error e => rw [hc] at hep; cases hep
      | ok bs =>
        rw [hc] at hep
        cases hep
        have := mapM_length _ _ _ hc
        intro hn
        subst hn
        exact h0 (List.length_eq_zero_iff.mp this.symm)
    · cases hep

theorem live_ne_nil {ι σ : Type} (conv : ι → Except Err σ) (N : Nat) (h : List (List (Item ι))) :
    ∀ e ∈ Spec.live conv N h, e ≠ [] := by
  intro e he
  obtain ⟨P, hP⟩ := keep_suffix N ((Spec.accepted conv h).filter fun e => e.length ≤ N)
  exact accepted_ne_nil conv h e (List.mem_of_mem_filter (by rw [hP]; exact List.mem_append_right _ he))

theorem live_eq {ι σ : Type} (conv : ι → Except Err σ) (N : Nat) (h : List (List (Item ι))) (hle : ∀ ep ∈ h, ep.length ≤ N) :
    Spec.live conv N h = keep N (Spec.accepted conv h) := by
  unfold Spec.live
  congr 1
  rw [List.filter_eq_self]
  intro e he
  unfold Spec.accepted at he
  rw [List.mem_filterMap] at he
  obtain ⟨ep, hmem, hep⟩ := he
  split at hep
  · cases hep
  · split at hep
    · cases hc : ep.mapM fun i => conv i.content with
      | error e => rw [hc] at hep; cases hep
      | ok bs =>
        rw [hc] at hep
        cases hep
        have := mapM_length _ _ _ hc
        have := hle ep hmem
        simp
        omega
    · cases hep

theorem keys_values {κ β : Type} [DecidableEq κ] (d : PyDict κ β) (k : κ) (h : k ∈ d.keys) :
    ∃ v, d.get? k = some v ∧ v ∈ d.values := by
  induction d with
  | nil => simp [PyDict.keys] at h
  | cons p d ih =>
    rw [PyDict.get?_cons]
    by_cases hp : p.1 = k
    · exact ⟨p.2, by rw [if_pos hp], by simp [PyDict.values]⟩
    · rw [if_neg hp]
      have : k ∈ PyDict.keys d := by
        simp only [PyDict.keys, List.map_cons, List.mem_cons] at h
        rcases h with h | h
        · exact absurd h.symm hp
        · exact h
      obtain ⟨v, h1, h2⟩ := ih this
      exact ⟨v, h1, by simp only [PyDict.values, List.map_cons, List.mem_cons]; right; exact h2⟩

theorem fetchEpisodes_spec {τ : Type} (b : Buffer τ) (live : List (List τ)) (hl : b.eth.values.map b.fetch = live.map .ok)
    (es : List Nat) (hes : ∀ e ∈ es, e ∈ b.eth.keys) :
    ∃ eps : List (List τ), eps.length = es.length ∧ (∀ ep ∈ eps, ep ∈ live) ∧ fetchEpisodes b es = .ok eps.flatten := by
  induction es with
  | nil => exact ⟨[], rfl, by simp, rfl⟩
  | cons e es ih =>
    obtain ⟨eps, h1, h2, h3⟩ := ih (fun x hx => hes x (by simp [hx]))
    obtain ⟨v, hv, hvm⟩ := keys_values b.eth e (hes e (by simp))
    have : b.fetch v ∈ live.map .ok := by rw [← hl]; exact List.mem_map_of_mem hvm
    obtain ⟨ep, hep, hepe⟩ := List.mem_map.mp this
    refine ⟨ep :: eps, by simp [h1], ?_, ?_⟩
    · intro x hx
      rcases List.mem_cons.mp hx with rfl | hx
      · exact hep
      · exact h2 x hx
    · simp only [fetchEpisodes, hv, ← hepe, h3, List.flatten_cons]

theorem waitAll_map_ok {α β : Type} (f : α → Except Err β) (g : α → β) (l : List α) (h : ∀ x ∈ l, f x = .ok (g x)) :
    Dist.waitAll (l.map f) = .ok (l.map g) := by
  induction l with
  | nil => rfl
  | cons x l ih =>
    simp only [List.map_cons, Dist.waitAll, h x (by simp)]
    rw [ih (fun y hy => h y (by simp [hy]))]

theorem waitAll_forall {α β : Type} (P : α → β → Prop) (f : α → Except Err β) (l : List α)
    (h : ∀ x ∈ l, ∃ y, f x = .ok y ∧ P x y) : ∃ ys, Dist.waitAll (l.map f) = .ok ys ∧ List.Forall₂ P l ys := by
  induction l with
  | nil => exact ⟨[], rfl, .nil⟩
  | cons x l ih =>
    obtain ⟨ys, h1, h2⟩ := ih (fun y hy => h y (by simp [hy]))
    obtain ⟨y, h3, h4⟩ := h x (by simp)
    refine ⟨y :: ys, ?_, .cons h4 h2⟩
    simp only [List.map_cons, Dist.waitAll, h3, h1]

/-! ### v-trace -/

section

variable {R : Type} [CommRing R] [LinearOrder R]

/-- The value assigned by one iteration, from the data of the step, the next target and the next value. -/
def stepTarget (h : Hyper R) (d : Datum R) (v' : R) (value' : R) : R :=
  d.value + deltaOf h d + h.discount * cOf h d * (v' - value')

theorem length_revLoop (h : Hyper R) (data : List (Datum R)) (offset k : Nat) (vs : List R) :
    (revLoop h data offset k vs).length = vs.length := by
  induction k generalizing vs with
  | zero => rfl
  | succ k ih => unfold revLoop; rw [ih]; simp

theorem revLoop_frame (h : Hyper R) (dpre dmid dpost : List (Datum R)) (pre mid post : List R) (k : Nat)
    (h1 : pre.length = dpre.length) (h2 : mid.length = dmid.length) (hk : k + 1 ≤ mid.length) :
    revLoop h (dpre ++ dmid ++ dpost) dpre.length k (pre ++ mid ++ post) = pre ++ revLoop h dmid 0 k mid ++ post := by
  induction k generalizing mid with
  | zero => rfl
  | succ k ih =>
    unfold revLoop
    simp only
    have get : ∀ (f : Datum R → R) (i : Nat), i < dmid.length →
        (((dpre ++ dmid ++ dpost).map f)[dpre.length + i]?).getD 0 = ((dmid.map f)[0 + i]?).getD 0 := by
      intro f i hi
      simp only [List.map_append, List.append_assoc]
      rw [List.getElem?_append_right (by simp), List.getElem?_append_left (by simpa using hi)]
      simp
    have e1 : dpre.length + k + 1 = dpre.length + (k + 1) := by omega
    have e2 : 0 + k + 1 = 0 + (k + 1) := by omega
    rw [e1, e2, get _ k (by omega), get _ k (by omega), get _ k (by omega), get _ (k + 1) (by omega)]
    have e3 : ((pre ++ mid ++ post)[dpre.length + (k + 1)]?).getD 0 = (mid[0 + (k + 1)]?).getD 0 := by
      rw [List.append_assoc, List.getElem?_append_right (by omega), List.getElem?_append_left (by omega)]
      congr 2
      omega
    rw [e3]
    have e4 : ∀ x : R, (pre ++ mid ++ post).set (dpre.length + k) x = pre ++ mid.set (0 + k) x ++ post := by
      intro x
      rw [List.append_assoc, List.set_append_right _ _ (by omega), List.set_append_left _ _ (by omega), List.append_assoc]
      congr 3
      omega
    rw [e4]
    exact ih _ (by simpa using h2) (by simp; omega)

theorem shiftCopy_frame (pre mid post vpre vmid vpost : List R) (o n : Nat) (h0 : vpre.length = o) (h1 : pre.length = o)
    (h2 : mid.length = n) (h3 : vmid.length = n) (hn : 1 ≤ n) :
    shiftCopy o n (pre ++ mid ++ post) (vpre ++ vmid ++ vpost) = vpre ++ shiftCopy 0 n mid vmid ++ vpost := by
  unfold shiftCopy
  have e1 : (vpre ++ vmid ++ vpost).take o = vpre := by
    rw [List.append_assoc, List.take_append_of_le_length (by omega), List.take_of_length_le (by omega)]
  have e2 : ((pre ++ mid ++ post).drop (o + 1)).take (n - 1) = (mid.drop (0 + 1)).take (n - 1) := by
    rw [List.append_assoc, ← h1, List.drop_length_add_append, List.drop_append_of_le_length (by omega),
      List.take_append_of_le_length (by simp; omega)]
  have e3 : (vpre ++ vmid ++ vpost).drop (o + (n - 1)) = vmid.drop (0 + (n - 1)) ++ vpost := by
    rw [List.append_assoc, ← h0, List.drop_length_add_append, List.drop_append_of_le_length (by omega), Nat.zero_add]
  rw [e1, e2, e3]
  simp

theorem length_shiftCopy (mid vmid : List R) (h : mid.length = vmid.length) (hn : 1 ≤ mid.length) :
    (shiftCopy 0 mid.length mid vmid).length = mid.length := by
  unfold shiftCopy
  simp
  omega

/-- The targets of an episode alone. -/
def alone (h : Hyper R) (ep : List (Datum R)) : List R × List R := vtrace h ep [ep.length]

theorem alone_eq (h : Hyper R) (ep : List (Datum R)) : alone h ep =
    (revLoop h ep 0 (ep.length - 1) (List.replicate ep.length 0),
      shiftCopy 0 ep.length (revLoop h ep 0 (ep.length - 1) (List.replicate ep.length 0)) (List.replicate ep.length 0)) := rfl

theorem epLoop_spec (h : Hyper R) (eps : List (List (Datum R))) (hne : ∀ e ∈ eps, e ≠ []) (dpre : List (Datum R))
    (pre vpre : List R) (h1 : pre.length = dpre.length) (h2 : vpre.length = dpre.length) :
    epLoop h (dpre ++ eps.flatten) (eps.map List.length) dpre.length
      (pre ++ List.replicate eps.flatten.length 0, vpre ++ List.replicate eps.flatten.length 0) =
    (pre ++ (eps.map fun e => (alone h e).1).flatten, vpre ++ (eps.map fun e => (alone h e).2).flatten) := by
  induction eps generalizing dpre pre vpre with
  | nil => simp [epLoop]
  | cons e eps ih =>
    have he : 1 ≤ e.length := List.length_pos_iff.mpr (hne e (by simp))
    simp only [List.map_cons, List.flatten_cons, List.length_append, ← List.replicate_append_replicate, epLoop]
    have r1 := revLoop_frame h dpre e eps.flatten pre (List.replicate e.length 0) (List.replicate eps.flatten.length 0)
      (e.length - 1) h1 (by simp) (by simp; omega)
    simp only [List.append_assoc] at r1
    rw [r1]
    have hl : (revLoop h e 0 (e.length - 1) (List.replicate e.length 0)).length = e.length := by
      rw [length_revLoop]; simp
    have r2 := shiftCopy_frame pre (revLoop h e 0 (e.length - 1) (List.replicate e.length 0))
      (List.replicate eps.flatten.length 0) vpre (List.replicate e.length 0) (List.replicate eps.flatten.length 0)
      dpre.length e.length h2 h1 hl (by simp) he
    simp only [List.append_assoc] at r2
    rw [r2]
    have hl2 : (shiftCopy 0 e.length (revLoop h e 0 (e.length - 1) (List.replicate e.length 0))
        (List.replicate e.length 0)).length = e.length := by
      have := length_shiftCopy (revLoop h e 0 (e.length - 1) (List.replicate e.length 0)) (List.replicate e.length 0)
        (by rw [hl]; simp) (by rw [hl]; exact he)
      rw [hl] at this
      exact this
    have r3 := ih (fun x hx => hne x (by simp [hx])) (dpre ++ e)
      (pre ++ revLoop h e 0 (e.length - 1) (List.replicate e.length 0))
      (vpre ++ shiftCopy 0 e.length (revLoop h e 0 (e.length - 1) (List.replicate e.length 0)) (List.replicate e.length 0))
      (by simp [hl, h1]) (by simp [hl2, h2])
    simp only [List.append_assoc, List.length_append] at r3
    rw [r3, alone_eq]

theorem revLoop_get (h : Hyper R) (data : List (Datum R)) (k : Nat) (vs : List R) (hl : vs.length = data.length)
    (hk : k + 1 ≤ data.length) :
    (∀ i, k ≤ i → (revLoop h data 0 k vs)[i]? = vs[i]?) ∧
    (∀ i d d', i < k → data[i]? = some d → data[i + 1]? = some d' →
      (revLoop h data 0 k vs)[i]? = some (stepTarget h d (((revLoop h data 0 k vs)[i + 1]?).getD 0) d'.value)) := by
  induction k generalizing vs with
  | zero => exact ⟨fun _ _ => rfl, fun i _ _ hi => by omega⟩
  | succ k ih =>
    unfold revLoop
    simp only
    generalize hx : (((data.map (·.value))[0 + k]?).getD 0 + ((data.map (deltaOf h))[0 + k]?).getD 0 +
      h.discount * ((data.map (cOf h))[0 + k]?).getD 0 *
        ((vs[0 + k + 1]?).getD 0 - ((data.map (·.value))[0 + k + 1]?).getD 0)) = x
    obtain ⟨i1, i2⟩ := ih (vs.set (0 + k) x) (by simpa using hl) (by omega)
    refine ⟨?_, ?_⟩
    · intro i hi
      rw [i1 i (by omega), List.getElem?_set, if_neg (by omega)]
    · intro i d d' hi hd hd'
      by_cases hik : i < k
      · exact i2 i d d' hik hd hd'
      · have : i = k := by omega
        subst this
        have s1 : (vs.set (0 + i) x)[i]? = some x := by rw [List.getElem?_set, if_pos (by omega), if_pos (by omega)]
        have s2 : (vs.set (0 + i) x)[i + 1]? = vs[i + 1]? := by rw [List.getElem?_set, if_neg (by omega)]
        rw [i1 i (by omega), i1 (i + 1) (by omega), s1, s2]
        congr 1
        rw [← hx]
        simp only [Nat.zero_add, List.getElem?_map, hd, hd', Option.map_some, Option.getD_some]
        rfl

end

end Machin.Impala
