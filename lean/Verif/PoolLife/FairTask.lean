import Verif.PoolLife.Fair

/-! # Lemmas: under a fair schedule every task is got, executed and delivered -/

namespace Machin.PoolLife

variable {processes t : Nat} {s : St}

theorem Open.step_same (maxtasks : Option Nat) (h : Open processes t s) (a : Step) (ha : a = .leave ∨ a = .send ∨ a = .rleave ∨ a = .kill) :
    PoolLife.step processes maxtasks s a = s := by
  have hgo := h.goOn
  rcases ha with rfl | rfl | rfl | rfl <;> unfold PoolLife.step <;> dsimp only
  · rw [if_neg (by rintro ⟨-, h2⟩; exact h2 hgo)]
  · rcases h.wh with hw | hw <;> simp only [hw]
  · rw [if_neg (by rintro ⟨-, h2⟩; exact h2 hgo)]
  · rw [if_neg (by rintro ⟨h1, -⟩; exact h.mode h1)]

/-! ### From the input queue to a worker -/

/-- Nobody can take a task: how far the worker handler is from starting workers. -/
def stuck (processes : Nat) (s : St) : Nat :=
  if total alive s.pool = 0 then
    match s.wh with
    | .head => 2
    | .swept => if processes ≤ s.pool.length then 3 else 1
    | _ => 0
  else 0

theorem stuck_le (processes : Nat) (s : St) : stuck processes s ≤ 3 := by
  unfold stuck
  split
  · split
    · omega
    · split <;> omega
    · omega
  · omega

def rankA (processes t : Nat) (s : St) : Nat :=
  ((s.inq.idxOf (.task t) * (processes + 1) + total isBusy s.pool) * (processes + 1) + total isExited s.pool) * 4 + stuck processes s

def helpA (s : St) : Step :=
  if s.pool.any busyB then .finish (s.pool.findIdx busyB)
  else if s.pool.any idleB then .get (s.pool.findIdx idleB)
  else if s.wh = .head then .sweep else .repopulate

theorem total_isBusy_le (l : List Worker) : total isBusy l ≤ l.length := total_le_length (fun w => by cases w <;> simp [isBusy]) l

theorem total_isExited_le (l : List Worker) : total isExited l ≤ l.length := total_le_length (fun w => by cases w <;> simp [isExited]) l

theorem any_busy_iff (l : List Worker) : l.any busyB = true ↔ 0 < total isBusy l := by
  induction l with
  | nil => simp [total]
  | cons x xs ih =>
    rw [List.any_cons, Bool.or_eq_true, ih]
    cases x <;> simp [busyB, total, isBusy]
    omega

theorem alive_zero_iff (l : List Worker) : total alive l = 0 ↔ ∀ w ∈ l, w = .exited := by
  induction l with
  | nil => simp [total]
  | cons x xs ih =>
    cases x <;> simp [total, alive, ih]

theorem noAlive_iff (l : List Worker) : (l.any busyB = false ∧ l.any idleB = false) ↔ total alive l = 0 := by
  rw [alive_zero_iff, List.any_eq_false, List.any_eq_false]
  constructor
  · rintro ⟨h1, h2⟩ w hw
    have := h1 w hw
    have := h2 w hw
    cases w <;> simp_all [busyB, idleB]
  · intro h
    exact ⟨fun w hw => by rw [h w hw]; simp [busyB], fun w hw => by rw [h w hw]; simp [idleB]⟩

theorem rankA_first {s' : St} (hp : s'.inq.idxOf (.task t) < s.inq.idxOf (.task t)) (hl' : s'.pool.length ≤ processes) :
    rankA processes t s' < rankA processes t s := by
  have h1 := total_isBusy_le s'.pool
  have h2 := total_isExited_le s'.pool
  have h3 := stuck_le processes s'
  unfold rankA
  exact enc_lt (enc_lt (enc_lt hp (by omega)) (by omega)) (by omega)

theorem rankA_second {s' : St} (hp : s'.inq.idxOf (.task t) = s.inq.idxOf (.task t)) (hb : total isBusy s'.pool < total isBusy s.pool)
    (hl' : s'.pool.length ≤ processes) : rankA processes t s' < rankA processes t s := by
  have h2 := total_isExited_le s'.pool
  have h3 := stuck_le processes s'
  unfold rankA
  rw [hp]
  exact enc_lt (enc_lt (by omega) (by omega)) (by omega)

theorem rankA_third {s' : St} (hp : s'.inq.idxOf (.task t) = s.inq.idxOf (.task t)) (hb : total isBusy s'.pool = total isBusy s.pool)
    (he : total isExited s'.pool < total isExited s.pool) : rankA processes t s' < rankA processes t s := by
  have h3 := stuck_le processes s'
  unfold rankA
  rw [hp, hb]
  exact enc_lt (by omega) (by omega)

/-- Helpful and counted things depend on queue, pool and position of the worker handler. -/
theorem rankA_congr {s' : St} (hp : s'.inq.idxOf (.task t) = s.inq.idxOf (.task t)) (hb : s'.pool = s.pool) (hw : s'.wh = s.wh) :
    rankA processes t s' = rankA processes t s ∧ helpA s' = helpA s := by
  unfold rankA helpA stuck
  rw [hp, hb, hw]
  exact ⟨rfl, rfl⟩

theorem filter_self_or (l : List Worker) : l.filter (· ≠ .exited) = l ∨ total isExited (l.filter (· ≠ .exited)) < total isExited l := by
  induction l with
  | nil => exact Or.inl rfl
  | cons x xs ih =>
    rw [List.filter_cons]
    split
    · rename_i h
      rcases ih with ih | ih
      · left; rw [ih]
      · right; simp only [total]; omega
    · rename_i h
      have : x = .exited := by simpa using h
      subst this
      right
      rcases ih with ih | ih
      · rw [ih]; simp [total, isExited]
      · simp only [total, isExited]; omega

theorem isBusy_replicate (n : Nat) : total isBusy (List.replicate n (.idle 0)) = 0 := total_replicate_zero _ _ _ rfl

theorem isExited_replicate (n : Nat) : total isExited (List.replicate n (.idle 0)) = 0 := total_replicate_zero _ _ _ rfl

theorem findIdx_append_of_any {α : Type} (p : α → Bool) (a b : List α) (h : a.any p = true) : (a ++ b).findIdx p = a.findIdx p := by
  rw [List.findIdx_append, if_pos (List.findIdx_lt_length.2 (by simpa using h))]

theorem stepA (maxtasks : Option Nat) (hp : 0 < processes) (h : Open processes t s) (hin : .task t ∈ s.inq) (a : Step) (ha : a ≠ .terminate) :
    .task t ∉ (step processes maxtasks s a).inq ∨ rankA processes t (step processes maxtasks s a) < rankA processes t s ∨
      (rankA processes t (step processes maxtasks s a) = rankA processes t s ∧ helpA (step processes maxtasks s a) = helpA s) := by
  have same : ∀ s' : St, s' = s → .task t ∉ s'.inq ∨ rankA processes t s' < rankA processes t s ∨
      (rankA processes t s' = rankA processes t s ∧ helpA s' = helpA s) := by
    rintro s' rfl
    exact Or.inr (Or.inr ⟨rfl, rfl⟩)
  have hI := h.inv.step maxtasks a
  cases a with
  | terminate => exact absurd rfl ha
  | leave => exact same _ (h.step_same maxtasks _ (by simp))
  | send => exact same _ (h.step_same maxtasks _ (by simp))
  | rleave => exact same _ (h.step_same maxtasks _ (by simp))
  | kill => exact same _ (h.step_same maxtasks _ (by simp))
  | submit =>
    unfold step
    dsimp only
    split
    · refine Or.inr (Or.inr (rankA_congr ?_ rfl rfl))
      dsimp only
      rw [List.idxOf_append, if_pos hin]
    · exact same _ rfl
  | close =>
    unfold step
    dsimp only
    split
    · exact Or.inr (Or.inr (rankA_congr rfl rfl rfl))
    · exact same _ rfl
  | deliver =>
    unfold step
    dsimp only
    repeat' split
    all_goals exact Or.inr (Or.inr (rankA_congr rfl rfl rfl))
  | get i =>
    unfold step
    dsimp only
    split
    · rename_i c t' rest h1 h2
      by_cases htt : t' = t
      · subst htt
        left
        dsimp only
        have hpl := h.place
        rw [h2] at hpl
        intro hmem
        have : inTask t' (.task t' :: rest) = inTask t' rest + 1 := by simp [inTask, isTask]
        have h3 : 0 < inTask t' rest := by
          unfold inTask
          rw [List.countP_pos_iff]
          exact ⟨_, hmem, by simp [isTask]⟩
        omega
      · right; left
        refine rankA_first ?_ (by dsimp only; rw [List.length_set]; exact h.length)
        dsimp only
        have hne : (Item.task t' == Item.task t) = false := by simpa using htt
        rw [h2, List.idxOf_cons, hne]
        simp
    · rename_i c rest h1 h2
      exfalso
      have := h.inv.nostop h.notLeft
      rw [h2] at this
      simp [stops] at this
    · exact same _ rfl
  | finish i =>
    unfold step
    dsimp only
    split
    · rename_i t' c h1
      right; left
      refine rankA_second rfl ?_ (by dsimp only; rw [List.length_set]; exact h.length)
      dsimp only
      have h2 := total_set isBusy h1 (if exhausted maxtasks (c + 1) then .exited else .idle (c + 1))
      have h3 : isBusy (if exhausted maxtasks (c + 1) then .exited else .idle (c + 1)) = 0 := by split <;> rfl
      rw [h3] at h2
      simp only [isBusy] at h2
      omega
    · exact same _ rfl
  | sweep =>
    unfold step
    dsimp only
    split
    · rename_i hh
      right
      rcases filter_self_or s.pool with he | he
      · by_cases hal : total alive s.pool = 0
        · left
          unfold rankA stuck
          dsimp only
          rw [he, if_pos hal, if_pos hal, hh.1]
          dsimp only
          have := h.inv.head hh.1
          have hall := (alive_zero_iff _).1 hal
          rw [filter_exited hall] at he
          rw [← he] at this
          simp at this
          omega
        · right
          unfold rankA helpA stuck
          dsimp only
          rw [he, if_neg hal, if_neg hal]
          refine ⟨rfl, ?_⟩
          have : ¬ (s.pool.any busyB = false ∧ s.pool.any idleB = false) := by rw [noAlive_iff]; exact hal
          by_cases hb : s.pool.any busyB = true
          · rw [if_pos hb, if_pos hb]
          · rw [if_neg hb, if_neg hb]
            by_cases hi : s.pool.any idleB = true
            · rw [if_pos hi, if_pos hi]
            · exact absurd ⟨by simpa using hb, by simpa using hi⟩ this
      · left
        exact rankA_third rfl (total_filter isBusy rfl _) he
    · exact same _ rfl
  | repopulate =>
    unfold step
    dsimp only
    split
    · rename_i hw
      right
      by_cases hal : total alive s.pool = 0
      · left
        unfold rankA stuck
        dsimp only
        rw [total_append, total_append, total_append, isBusy_replicate, isExited_replicate, if_pos hal, hw, hal]
        dsimp only
        by_cases hlen : processes ≤ s.pool.length
        · rw [if_pos hlen, Nat.sub_eq_zero_of_le hlen]
          simp [total]
        · rw [if_neg hlen]
          have : 0 < total alive (List.replicate (processes - s.pool.length) (.idle 0)) := by
            obtain ⟨k, hk⟩ : ∃ k, processes - s.pool.length = k + 1 := ⟨processes - s.pool.length - 1, by omega⟩
            simp only [hk, List.replicate_succ, total, alive]
            omega
          rw [if_neg (by omega)]
          simp
      · right
        have hne : ¬ total alive (s.pool ++ List.replicate (processes - s.pool.length) (.idle 0)) = 0 := by
          rw [total_append]; omega
        unfold rankA helpA stuck
        dsimp only
        rw [if_neg hal, if_neg hne, total_append, total_append, isBusy_replicate, isExited_replicate]
        refine ⟨by simp, ?_⟩
        have hnone : ¬ (s.pool.any busyB = false ∧ s.pool.any idleB = false) := by rw [noAlive_iff]; exact hal
        have hrep : (List.replicate (processes - s.pool.length) (Worker.idle 0)).any busyB = false := by
          rw [List.any_eq_false]
          intro w hw'
          rw [(List.mem_replicate.1 hw').2]
          simp [busyB]
        by_cases hb : s.pool.any busyB = true
        · rw [if_pos hb, if_pos (by rw [List.any_append, hb]; rfl), findIdx_append_of_any _ _ _ hb]
        · rw [if_neg hb, if_neg (by rw [List.any_append, hrep]; simpa using hb)]
          by_cases hi : s.pool.any idleB = true
          · rw [if_pos hi, if_pos (by rw [List.any_append, hi]; rfl), findIdx_append_of_any _ _ _ hi]
          · exact absurd ⟨by simpa using hb, by simpa using hi⟩ hnone
    · exact same _ rfl

theorem helpA_works (maxtasks : Option Nat) (hp : 0 < processes) (h : Open processes t s) (hin : .task t ∈ s.inq) :
    .task t ∉ (step processes maxtasks s (helpA s)).inq ∨ rankA processes t (step processes maxtasks s (helpA s)) < rankA processes t s := by
  have hs := fun a ha => stepA maxtasks hp h hin a ha
  by_cases hb : s.pool.any busyB = true
  · have e : helpA s = .finish (s.pool.findIdx busyB) := by unfold helpA; rw [if_pos hb]
    rw [e]
    have hlt : s.pool.findIdx busyB < s.pool.length := List.findIdx_lt_length.2 (by simpa using hb)
    have hg := List.findIdx_getElem (w := hlt)
    cases hw : s.pool[s.pool.findIdx busyB] with
    | idle c => rw [hw] at hg; cases hg
    | exited => rw [hw] at hg; cases hg
    | busy t' c =>
      have h1 : s.pool[s.pool.findIdx busyB]? = some (.busy t' c) := by rw [List.getElem?_eq_getElem hlt, hw]
      right
      unfold step
      simp only [h1]
      refine rankA_second rfl ?_ (by dsimp only; rw [List.length_set]; exact h.length)
      dsimp only
      have h2 := total_set isBusy h1 (if exhausted maxtasks (c + 1) then .exited else .idle (c + 1))
      have h3 : isBusy (if exhausted maxtasks (c + 1) then .exited else .idle (c + 1)) = 0 := by split <;> rfl
      rw [h3] at h2
      simp only [isBusy] at h2
      omega
  by_cases hi : s.pool.any idleB = true
  · have e : helpA s = .get (s.pool.findIdx idleB) := by unfold helpA; rw [if_neg hb, if_pos hi]
    rw [e]
    have hlt : s.pool.findIdx idleB < s.pool.length := List.findIdx_lt_length.2 (by simpa using hi)
    have hg := List.findIdx_getElem (w := hlt)
    cases hw : s.pool[s.pool.findIdx idleB] with
    | busy t' c => rw [hw] at hg; cases hg
    | exited => rw [hw] at hg; cases hg
    | idle c =>
      have h1 : s.pool[s.pool.findIdx idleB]? = some (.idle c) := by rw [List.getElem?_eq_getElem hlt, hw]
      cases hq : s.inq with
      | nil => rw [hq] at hin; cases hin
      | cons x rest =>
        cases x with
        | stop =>
          exfalso
          have := h.inv.nostop h.notLeft
          rw [hq] at this
          simp [stops] at this
        | task t' =>
          have hst : step processes maxtasks s (.get (s.pool.findIdx idleB)) =
              { s with inq := rest, pool := s.pool.set (s.pool.findIdx idleB) (.busy t' c) } := by
            unfold step
            simp only [h1, hq]
          rw [hst]
          by_cases htt : t' = t
          · left
            subst htt
            dsimp only
            have hpl := h.place
            rw [hq] at hpl
            intro hmem
            have : inTask t' (.task t' :: rest) = inTask t' rest + 1 := by simp [inTask, isTask]
            have h3 : 0 < inTask t' rest := by
              unfold inTask
              rw [List.countP_pos_iff]
              exact ⟨_, hmem, by simp [isTask]⟩
            omega
          · right
            refine rankA_first ?_ (by dsimp only; rw [List.length_set]; exact h.length)
            dsimp only
            have hne : (Item.task t' == Item.task t) = false := by simpa using htt
            rw [hq, List.idxOf_cons, hne]
            simp
  -- nobody is alive
  have hal : total alive s.pool = 0 := (noAlive_iff _).1 ⟨by simpa using hb, by simpa using hi⟩
  have hall := (alive_zero_iff _).1 hal
  rcases h.wh with hw | hw
  · have e : helpA s = .sweep := by unfold helpA; rw [if_neg hb, if_neg hi, if_pos hw]
    rw [e]
    right
    unfold step
    dsimp only
    rw [if_pos ⟨hw, h.goOn⟩]
    rcases filter_self_or s.pool with he | he
    · have := h.inv.head hw
      rw [filter_exited hall] at he
      rw [← he] at this
      simp at this
      omega
    · exact rankA_third rfl (total_filter isBusy rfl _) he
  · have e : helpA s = .repopulate := by unfold helpA; rw [if_neg hb, if_neg hi, if_neg (by rw [hw]; decide)]
    rw [e]
    right
    unfold step
    dsimp only
    rw [if_pos hw]
    unfold rankA stuck
    dsimp only
    rw [total_append, total_append, total_append, isBusy_replicate, isExited_replicate, if_pos hal, hw, hal]
    dsimp only
    by_cases hlen : processes ≤ s.pool.length
    · rw [if_pos hlen, Nat.sub_eq_zero_of_le hlen]
      simp [total]
    · rw [if_neg hlen]
      have : 0 < total alive (List.replicate (processes - s.pool.length) (.idle 0)) := by
        obtain ⟨k, hk⟩ : ∃ k, processes - s.pool.length = k + 1 := ⟨processes - s.pool.length - 1, by omega⟩
        simp only [hk, List.replicate_succ, total, alive]
        omega
      rw [if_neg (by omega)]
      simp

/-! ### From a worker to the output queue -/

/-- Is the worker running task `t`? -/
def runsB (t : Nat) : Worker → Bool
  | .busy t' _ => t' == t
  | _ => false

theorem runs_pos_iff (t : Nat) (w : Worker) : 0 < runs t w ↔ runsB t w = true := by
  cases w with
  | busy t' c => by_cases h : t' = t <;> simp [runs, runsB, h]
  | idle c => simp [runs, runsB]
  | exited => simp [runs, runsB]

theorem any_runs_iff (t : Nat) (l : List Worker) : l.any (runsB t) = true ↔ 0 < total (runs t) l := by
  induction l with
  | nil => simp [total]
  | cons x xs ih =>
    rw [List.any_cons, Bool.or_eq_true, ih, ← runs_pos_iff]
    simp only [total]
    omega

theorem findIdx_set_other {α : Type} (p : α → Bool) (l : List α) (i : Nat) (x w : α) (h : l[i]? = some x) (hx : p x = false) (hw : p w = false) :
    (l.set i w).findIdx p = l.findIdx p := by
  induction l generalizing i with
  | nil => cases h
  | cons y ys ih =>
    cases i with
    | zero =>
      simp only [List.getElem?_cons_zero, Option.some.injEq] at h
      subst h
      rw [List.set_cons_zero, List.findIdx_cons, List.findIdx_cons, hx, hw]
    | succ i =>
      simp only [List.getElem?_cons_succ] at h
      rw [List.set_cons_succ, List.findIdx_cons, List.findIdx_cons, ih i h]

theorem findIdx_filter_le {α : Type} (p q : α → Bool) (l : List α) (h : ∀ x, p x = true → q x = true) : (l.filter q).findIdx p ≤ l.findIdx p := by
  induction l with
  | nil => exact Nat.le_refl _
  | cons x xs ih =>
    rw [List.filter_cons]
    split
    · rw [List.findIdx_cons, List.findIdx_cons]
      cases p x <;> simp [ih]
    · rename_i hq
      rw [List.findIdx_cons]
      cases hp : p x with
      | true => exact absurd (h x hp) hq
      | false => simp; omega

def rankB (t : Nat) (s : St) : Nat := s.pool.findIdx (runsB t)

theorem Open.submitted (h : Open processes t s) : t < s.submitted.length := by
  have h1 := h.inv.account t
  rw [h.cached] at h1
  have : t ∈ s.submitted := List.count_pos_iff.1 (by omega)
  rw [h.inv.distinct] at this
  simpa using this

theorem not_inq_step (maxtasks : Option Nat) (h : Open processes t s) (hin : .task t ∉ s.inq) (a : Step) :
    .task t ∉ (step processes maxtasks s a).inq := by
  have hsub := h.submitted
  cases a <;> unfold step <;> dsimp only <;> repeat' split
  all_goals first
    | exact hin
    | (dsimp only
       simp only [List.mem_append, List.mem_cons, List.not_mem_nil, or_false, not_or]
       refine ⟨hin, ?_⟩
       intro e
       first
         | (injection e with e; omega)
         | cases e)
    | (rename_i h1 h2
       dsimp only
       intro hm
       exact hin (by rw [h2]; exact List.mem_cons_of_mem _ hm))

theorem stepB (maxtasks : Option Nat) (h : Open processes t s) (hin : .task t ∉ s.inq) (hrun : 0 < total (runs t) s.pool) (a : Step) (ha : a ≠ .terminate) :
    t ∈ (step processes maxtasks s a).outq ∨ (rankB t (step processes maxtasks s a) ≤ rankB t s ∧ 0 < total (runs t) (step processes maxtasks s a).pool) := by
  have hsame : t ∈ s.outq ∨ (rankB t s ≤ rankB t s ∧ 0 < total (runs t) s.pool) := Or.inr ⟨Nat.le_refl _, hrun⟩
  cases a with
  | terminate => exact absurd rfl ha
  | leave => rw [h.step_same maxtasks _ (Or.inl rfl)]; exact hsame
  | send => rw [h.step_same maxtasks _ (Or.inr (Or.inl rfl))]; exact hsame
  | rleave => rw [h.step_same maxtasks _ (Or.inr (Or.inr (Or.inl rfl)))]; exact hsame
  | kill => rw [h.step_same maxtasks _ (Or.inr (Or.inr (Or.inr rfl)))]; exact hsame
  | submit =>
    right
    unfold step
    dsimp only
    split <;> exact ⟨Nat.le_refl _, hrun⟩
  | close =>
    right
    unfold step
    dsimp only
    split <;> exact ⟨Nat.le_refl _, hrun⟩
  | deliver =>
    right
    unfold step
    dsimp only
    repeat' split
    all_goals exact ⟨Nat.le_refl _, hrun⟩
  | get i =>
    right
    unfold step
    dsimp only
    split
    · rename_i c t' rest h1 h2
      have htt : t' ≠ t := by
        rintro rfl
        exact hin (by rw [h2]; exact List.mem_cons_self)
      refine ⟨?_, ?_⟩
      · unfold rankB
        dsimp only
        rw [findIdx_set_other (runsB t) s.pool i _ _ h1 rfl (by simpa [runsB] using htt)]
        exact Nat.le_refl _
      · have := total_set (runs t) h1 (.busy t' c)
        simp only [runs, if_neg htt] at this
        dsimp only
        omega
    · rename_i c rest h1 h2
      refine ⟨?_, ?_⟩
      · unfold rankB
        dsimp only
        rw [findIdx_set_other (runsB t) s.pool i _ _ h1 rfl rfl]
        exact Nat.le_refl _
      · have := total_set (runs t) h1 .exited
        simp only [runs] at this
        dsimp only
        omega
    · exact ⟨Nat.le_refl _, hrun⟩
  | finish i =>
    unfold step
    dsimp only
    split
    · rename_i t' c h1
      by_cases htt : t' = t
      · left
        subst htt
        simp
      · right
        have hz : runsB t (if exhausted maxtasks (c + 1) then .exited else .idle (c + 1)) = false := by split <;> rfl
        have hz' : runs t (if exhausted maxtasks (c + 1) then .exited else .idle (c + 1)) = 0 := by split <;> rfl
        refine ⟨?_, ?_⟩
        · unfold rankB
          dsimp only
          rw [findIdx_set_other (runsB t) s.pool i _ _ h1 (by simpa [runsB] using htt) hz]
          exact Nat.le_refl _
        · have := total_set (runs t) h1 (if exhausted maxtasks (c + 1) then .exited else .idle (c + 1))
          rw [hz'] at this
          simp only [runs, if_neg htt] at this
          dsimp only
          omega
    · exact hsame
  | sweep =>
    right
    unfold step
    dsimp only
    split
    · refine ⟨?_, ?_⟩
      · unfold rankB
        dsimp only
        apply findIdx_filter_le
        intro w hw
        cases w with
        | busy t' c => simp
        | idle c => cases hw
        | exited => cases hw
      · dsimp only
        rw [total_filter (runs t) rfl]
        exact hrun
    · exact ⟨Nat.le_refl _, hrun⟩
  | repopulate =>
    right
    unfold step
    dsimp only
    split
    · refine ⟨?_, ?_⟩
      · unfold rankB
        dsimp only
        rw [findIdx_append_of_any _ _ _ ((any_runs_iff t s.pool).2 hrun)]
        exact Nat.le_refl _
      · dsimp only
        rw [total_append]
        omega
    · exact ⟨Nat.le_refl _, hrun⟩

theorem helpB_works (maxtasks : Option Nat) (hrun : 0 < total (runs t) s.pool) : t ∈ (step processes maxtasks s (.finish (rankB t s))).outq := by
  have hany := (any_runs_iff t s.pool).2 hrun
  have hlt : s.pool.findIdx (runsB t) < s.pool.length := List.findIdx_lt_length.2 (by simpa using hany)
  have hg := List.findIdx_getElem (w := hlt)
  cases hw : s.pool[s.pool.findIdx (runsB t)] with
  | idle c => rw [hw] at hg; cases hg
  | exited => rw [hw] at hg; cases hg
  | busy t' c =>
    rw [hw] at hg
    have htt : t' = t := by simpa [runsB] using hg
    have h1 : s.pool[rankB t s]? = some (.busy t c) := by
      unfold rankB
      rw [List.getElem?_eq_getElem hlt, hw, htt]
    unfold step
    simp only [h1]
    simp

/-! ### From the output queue to the result -/

theorem stepC (maxtasks : Option Nat) (h : Open processes t s) (hout : t ∈ s.outq) (a : Step) :
    t ∈ (step processes maxtasks s a).delivered ∨
      (t ∈ (step processes maxtasks s a).outq ∧ (step processes maxtasks s a).outq.idxOf t ≤ s.outq.idxOf t ∧
        (a = .deliver → (step processes maxtasks s a).outq.idxOf t < s.outq.idxOf t)) := by
  have hsame : ∀ b : Step, b ≠ .deliver → t ∈ s.delivered ∨ (t ∈ s.outq ∧ s.outq.idxOf t ≤ s.outq.idxOf t ∧
      (b = .deliver → s.outq.idxOf t < s.outq.idxOf t)) := fun b hb => Or.inr ⟨hout, Nat.le_refl _, fun e => absurd e hb⟩
  have hmem : t ∈ s.cache := List.count_pos_iff.1 (by rw [h.cached]; decide)
  cases a with
  | deliver =>
    unfold step
    dsimp only
    rw [if_neg (by rw [h.rh]; decide), if_pos h.goOn]
    cases hq : s.outq with
    | nil => rw [hq] at hout; cases hout
    | cons x rest =>
      by_cases hx : x = t
      · subst hx
        left
        dsimp only
        rw [if_pos hmem]
        simp
      · right
        rw [hq] at hout
        have hout' : t ∈ rest := by
          rcases List.mem_cons.1 hout with e | e
          · exact absurd e.symm hx
          · exact e
        have hne : (x == t) = false := by simpa using hx
        dsimp only
        split
        · refine ⟨hout', ?_, fun _ => ?_⟩ <;> dsimp only <;> rw [List.idxOf_cons, hne] <;> simp
        · refine ⟨hout', ?_, fun _ => ?_⟩ <;> dsimp only <;> rw [List.idxOf_cons, hne] <;> simp
  | finish i =>
    unfold step
    dsimp only
    split
    · right
      refine ⟨by simp [hout], ?_, by intro e; cases e⟩
      dsimp only
      rw [List.idxOf_append, if_pos hout]
      exact Nat.le_refl _
    · exact hsame (.finish i) (by simp)
  | submit => unfold step; dsimp only; split <;> exact hsame .submit (by simp)
  | close => unfold step; dsimp only; split <;> exact hsame .close (by simp)
  | terminate => exact hsame .terminate (by simp)
  | get i => unfold step; dsimp only; split <;> exact hsame (.get i) (by simp)
  | sweep => unfold step; dsimp only; split <;> exact hsame .sweep (by simp)
  | repopulate => unfold step; dsimp only; split <;> exact hsame .repopulate (by simp)
  | leave => unfold step; dsimp only; split <;> exact hsame .leave (by simp)
  | send => unfold step; dsimp only; split <;> exact hsame .send (by simp)
  | rleave => unfold step; dsimp only; split <;> exact hsame .rleave (by simp)
  | kill => unfold step; dsimp only; split <;> exact hsame .kill (by simp)

/-! ### All together -/

theorem helpA_fair (s : St) : (helpA s).user = false := by
  unfold helpA
  repeat' split
  all_goals rfl

/-- Along a fair schedule without `terminate` an open task is delivered. -/
theorem task_fair (maxtasks : Option Nat) (hp : 0 < processes) (σ : Nat → Step) (hfair : Fair σ) (hok : ∀ n, σ n ≠ .terminate) (s0 : St) (n : Nat)
    (h : Open processes t (traj (step processes maxtasks) σ s0 n)) :
    ∃ m, n ≤ m ∧ t ∈ (traj (step processes maxtasks) σ s0 m).delivered := by
  have hdel : ∀ s a, t ∈ s.delivered → t ∈ (step processes maxtasks s a).delivered := by
    intro s a hs
    obtain ⟨l, hl⟩ := delivered_step processes maxtasks s a
    rw [hl]
    exact List.mem_append_left _ hs
  -- got by a worker
  have hA : ∃ m, n ≤ m ∧ (t ∈ (traj (step processes maxtasks) σ s0 m).delivered ∨
      (Open processes t (traj (step processes maxtasks) σ s0 m) ∧ .task t ∉ (traj (step processes maxtasks) σ s0 m).inq)) := by
    refine fair_rule (step processes maxtasks) σ s0 (fun s => Open processes t s ∨ t ∈ s.delivered)
      (fun s => t ∈ s.delivered ∨ (Open processes t s ∧ .task t ∉ s.inq)) (rankA processes t) helpA (· ≠ .terminate) (fun a => a.user = false) hok hfair
      (fun s _ _ => helpA_fair s) ?_ ?_ ?_ n (Or.inl h)
    · intro s a ha hI
      rcases hI with hI | hI
      · exact hI.step maxtasks a ha
      · exact Or.inr (hdel s a hI)
    · intro s a hI hg ha
      have hnd : t ∉ s.delivered := fun e => hg (Or.inl e)
      have ho : Open processes t s := by rcases hI with hI | hI; exact hI; exact absurd hI hnd
      have hin : .task t ∈ s.inq := by
        cases Classical.em (.task t ∈ s.inq) with
        | inl e => exact e
        | inr e => exact absurd (Or.inr ⟨ho, e⟩) hg
      rcases ho.step maxtasks a ha with ho' | hd
      · rcases stepA maxtasks hp ho hin a ha with e | e | e
        · exact Or.inl (Or.inr ⟨ho', e⟩)
        · exact Or.inr (Or.inl e)
        · exact Or.inr (Or.inr e)
      · exact Or.inl (Or.inl hd)
    · intro s hI hg
      have hnd : t ∉ s.delivered := fun e => hg (Or.inl e)
      have ho : Open processes t s := by rcases hI with hI | hI; exact hI; exact absurd hI hnd
      have hin : .task t ∈ s.inq := by
        cases Classical.em (.task t ∈ s.inq) with
        | inl e => exact e
        | inr e => exact absurd (Or.inr ⟨ho, e⟩) hg
      have hne : helpA s ≠ .terminate := by
        intro e
        have := helpA_fair s
        rw [e] at this
        cases this
      rcases ho.step maxtasks _ hne with ho' | hd
      · rcases helpA_works maxtasks hp ho hin with e | e
        · exact Or.inl (Or.inr ⟨ho', e⟩)
        · exact Or.inr e
      · exact Or.inl (Or.inl hd)
  obtain ⟨m1, hm1, hA⟩ := hA
  rcases hA with hA | hA
  · exact ⟨m1, hm1, hA⟩
  -- executed
  have hB : ∃ m, m1 ≤ m ∧ (t ∈ (traj (step processes maxtasks) σ s0 m).delivered ∨
      (Open processes t (traj (step processes maxtasks) σ s0 m) ∧ t ∈ (traj (step processes maxtasks) σ s0 m).outq)) := by
    refine fair_rule (step processes maxtasks) σ s0 (fun s => (Open processes t s ∧ .task t ∉ s.inq) ∨ t ∈ s.delivered)
      (fun s => t ∈ s.delivered ∨ (Open processes t s ∧ t ∈ s.outq)) (rankB t) (fun s => .finish (rankB t s)) (· ≠ .terminate) (fun a => a.user = false)
      hok hfair (fun s _ _ => rfl) ?_ ?_ ?_ m1 (Or.inl hA)
    · intro s a ha hI
      rcases hI with ⟨hI, hin⟩ | hI
      · rcases hI.step maxtasks a ha with h' | h'
        · exact Or.inl ⟨h', not_inq_step maxtasks hI hin a⟩
        · exact Or.inr h'
      · exact Or.inr (hdel s a hI)
    · intro s a hI hg ha
      have hnd : t ∉ s.delivered := fun e => hg (Or.inl e)
      obtain ⟨ho, hin⟩ : Open processes t s ∧ .task t ∉ s.inq := by rcases hI with hI | hI; exact hI; exact absurd hI hnd
      have hout : t ∉ s.outq := fun e => hg (Or.inr ⟨ho, e⟩)
      have hrun : 0 < total (runs t) s.pool := by
        have := ho.place
        rw [List.count_eq_zero.2 hout] at this
        have h0 : inTask t s.inq = 0 := by
          unfold inTask
          rw [List.countP_eq_zero]
          intro x hx hx'
          cases x with
          | stop => cases hx'
          | task t' =>
            have : t' = t := by simpa [isTask] using hx'
            exact hin (this ▸ hx)
        omega
      rcases ho.step maxtasks a ha with ho' | hd
      · rcases stepB maxtasks ho hin hrun a ha with e | ⟨e, -⟩
        · exact Or.inl (Or.inr ⟨ho', e⟩)
        · rcases Nat.lt_or_ge (rankB t (step processes maxtasks s a)) (rankB t s) with e' | e'
          · exact Or.inr (Or.inl e')
          · have : rankB t (step processes maxtasks s a) = rankB t s := by omega
            exact Or.inr (Or.inr ⟨this, by rw [this]⟩)
      · exact Or.inl (Or.inl hd)
    · intro s hI hg
      have hnd : t ∉ s.delivered := fun e => hg (Or.inl e)
      obtain ⟨ho, hin⟩ : Open processes t s ∧ .task t ∉ s.inq := by rcases hI with hI | hI; exact hI; exact absurd hI hnd
      have hout : t ∉ s.outq := fun e => hg (Or.inr ⟨ho, e⟩)
      have hrun : 0 < total (runs t) s.pool := by
        have := ho.place
        rw [List.count_eq_zero.2 hout] at this
        have h0 : inTask t s.inq = 0 := by
          unfold inTask
          rw [List.countP_eq_zero]
          intro x hx hx'
          cases x with
          | stop => cases hx'
          | task t' =>
            have : t' = t := by simpa [isTask] using hx'
            exact hin (this ▸ hx)
        omega
      rcases ho.step maxtasks (.finish (rankB t s)) (by simp) with ho' | hd
      · exact Or.inl (Or.inr ⟨ho', helpB_works maxtasks hrun⟩)
      · exact Or.inl (Or.inl hd)
  obtain ⟨m2, hm2, hB⟩ := hB
  rcases hB with hB | hB
  · exact ⟨m2, by omega, hB⟩
  -- delivered
  have hC : ∃ m, m2 ≤ m ∧ t ∈ (traj (step processes maxtasks) σ s0 m).delivered := by
    refine fair_rule (step processes maxtasks) σ s0 (fun s => (Open processes t s ∧ t ∈ s.outq) ∨ t ∈ s.delivered)
      (fun s => t ∈ s.delivered) (fun s => s.outq.idxOf t) (fun _ => .deliver) (· ≠ .terminate) (fun a => a.user = false)
      hok hfair (fun s _ _ => rfl) ?_ ?_ ?_ m2 (Or.inl hB)
    · intro s a ha hI
      rcases hI with ⟨hI, hin⟩ | hI
      · rcases stepC maxtasks hI hin a with h' | ⟨h', -, -⟩
        · exact Or.inr h'
        · rcases hI.step maxtasks a ha with h'' | h''
          · exact Or.inl ⟨h'', h'⟩
          · exact Or.inr h''
      · exact Or.inr (hdel s a hI)
    · intro s a hI hg ha
      obtain ⟨ho, hin⟩ : Open processes t s ∧ t ∈ s.outq := by rcases hI with hI | hI; exact hI; exact absurd hI hg
      rcases stepC maxtasks ho hin a with h' | ⟨-, h', -⟩
      · exact Or.inl h'
      · rcases Nat.lt_or_ge ((step processes maxtasks s a).outq.idxOf t) (s.outq.idxOf t) with e' | e'
        · exact Or.inr (Or.inl e')
        · exact Or.inr (Or.inr ⟨by omega, rfl⟩)
    · intro s hI hg
      obtain ⟨ho, hin⟩ : Open processes t s ∧ t ∈ s.outq := by rcases hI with hI | hI; exact hI; exact absurd hI hg
      rcases stepC maxtasks ho hin .deliver with h' | ⟨-, -, h'⟩
      · exact Or.inl h'
      · exact Or.inr (h' rfl)
  obtain ⟨m3, hm3, hC⟩ := hC
  exact ⟨m3, by omega, hC⟩

end Machin.PoolLife
