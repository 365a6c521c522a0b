import Verif.Pool.LoopSpec
import Mathlib.Data.List.Induction

/-! # Lemmas on workers whose calls end in any way -/

namespace Machin.Pool

open Spec

variable {β ε : Type}

theorem round_msg (ser : Msg β ε → Bool) (maxtasks : Option Nat) (c : Nat) (t : Todo β ε) :
    (workRound ser maxtasks c t).1.toList = sent ser [t] := by
  unfold workRound sent message sent
  cases t.ends with
  | exits => rfl
  | returns v =>
    by_cases h : ser ⟨t.job, t.chunk, .ok v⟩ <;> cases maxtasks <;> simp [putMsg, h]
  | raises e =>
    by_cases h : ser ⟨t.job, t.chunk, .error e⟩ <;> cases maxtasks <;> simp [putMsg, h]

theorem sent_append (ser : Msg β ε → Bool) (a b : List (Todo β ε)) : sent ser (a ++ b) = sent ser a ++ sent ser b := by
  induction a with
  | nil => rfl
  | cons t a ih =>
    simp only [List.cons_append, sent, ih]
    cases message t with
    | none => rfl
    | some m => by_cases h : ser m <;> simp [h]

theorem shop_snoc (ser : Msg β ε → Bool) (maxtasks : Option Nat) (ok : Bool) (n : Nat) (tasks : List (Todo β ε)) (acts : List Act) (a : Act) :
    Shop.run ser maxtasks ok n tasks (acts ++ [a]) = (Shop.run ser maxtasks ok n tasks acts).step ser maxtasks ok a := by simp [Shop.run]

/-- Some tasks have been taken, the others wait; the messages are those of the tasks taken. -/
theorem shop_split (ser : Msg β ε → Bool) (maxtasks : Option Nat) (ok : Bool) (n : Nat) (tasks : List (Todo β ε)) (acts : List Act) :
    ∃ taken, taken ++ (Shop.run ser maxtasks ok n tasks acts).queue = tasks ∧ (Shop.run ser maxtasks ok n tasks acts).out = sent ser taken ∧
      (Shop.run ser maxtasks ok n tasks acts).workers.length = n := by
  induction acts using List.reverseRecOn with
  | nil => exact ⟨[], by simp [Shop.run, sent]⟩
  | append_singleton acts a ih =>
    obtain ⟨taken, h1, h2, h3⟩ := ih
    rw [shop_snoc]
    generalize Shop.run ser maxtasks ok n tasks acts = s at *
    cases a with
    | maintain => exact ⟨taken, h1, h2, by simpa [Shop.step] using h3⟩
    | round i =>
      unfold Shop.step
      simp only
      split
      · rename_i c t rest hw hq
        refine ⟨taken ++ [t], ?_, ?_, ?_⟩
        · rw [← h1, hq]; simp
        · simp only [h2, sent_append, round_msg]
        · simpa using h3
      · exact ⟨taken, h1, h2, h3⟩

theorem sent_mem (ser : Msg β ε → Bool) (ts : List (Todo β ε)) (m : Msg β ε) : m ∈ sent ser ts ↔ ∃ t ∈ ts, message t = some m ∧ ser m = true := by
  induction ts with
  | nil => simp [sent]
  | cons t ts ih =>
    simp only [sent, List.mem_cons, exists_eq_or_imp]
    cases h : message t with
    | none => simp [ih]
    | some m' =>
      by_cases hs : ser m'
      · simp only [hs, if_true, List.mem_cons, ih, Option.some.injEq]
        constructor
        · rintro (rfl | h)
          · exact Or.inl ⟨rfl, hs⟩
          · exact Or.inr h
        · rintro (⟨rfl, _⟩ | h)
          · exact Or.inl rfl
          · exact Or.inr h
      · simp only [hs, Option.some.injEq]
        rw [if_neg (by simp), ih]
        constructor
        · exact Or.inr
        · rintro (⟨rfl, h⟩ | h)
          · exact absurd h hs
          · exact h

theorem message_job {t : Todo β ε} {m : Msg β ε} (h : message t = some m) : m.job = t.job ∧ m.chunk = t.chunk := by
  unfold message at h
  cases he : t.ends <;> rw [he] at h <;> simp only [Option.some.injEq, reduceCtorEq] at h <;> subst h <;> simp

/-- Without a working initializer nothing is taken. -/
theorem shop_dead (ser : Msg β ε → Bool) (maxtasks : Option Nat) (n : Nat) (tasks : List (Todo β ε)) (acts : List Act) :
    Shop.run ser maxtasks false n tasks acts = ⟨tasks, List.replicate n none, []⟩ := by
  induction acts using List.reverseRecOn with
  | nil => simp [Shop.run, startWorker]
  | append_singleton acts a ih =>
    rw [shop_snoc, ih]
    cases a with
    | maintain => simp [Shop.step, startWorker]
    | round i =>
      unfold Shop.step
      simp only
      split
      · rename_i hw
        rw [List.getElem?_replicate] at hw
        split at hw <;> simp at hw
      · rfl

/-- One repair and one round take one task. -/
theorem shop_progress (ser : Msg β ε → Bool) (maxtasks : Option Nat) (s : Shop β ε) (i : Nat) (hi : i < s.workers.length) :
    ((s.step ser maxtasks true .maintain).step ser maxtasks true (.round i)).queue = s.queue.drop 1 ∧
    ((s.step ser maxtasks true .maintain).step ser maxtasks true (.round i)).workers.length = s.workers.length := by
  cases hq : s.queue with
  | nil =>
    simp only [Shop.step, hq]
    split
    · simp_all
    · simp [hq]
  | cons t rest =>
    have : ∃ c, (s.step ser maxtasks true .maintain).workers[i]? = some (some c) := by
      simp only [Shop.step, List.getElem?_map, List.getElem?_eq_getElem hi, Option.map_some]
      cases s.workers[i] with
      | none => exact ⟨0, rfl⟩
      | some c => exact ⟨c, rfl⟩
    obtain ⟨c, hc⟩ := this
    have hq' : (s.step ser maxtasks true .maintain).queue = t :: rest := by simpa [Shop.step] using hq
    have hl : (s.step ser maxtasks true .maintain).workers.length = s.workers.length := by simp [Shop.step]
    rw [Shop.step]
    simp only [hc, hq', List.length_set, hl]
    simp

/-- Reading results. -/
theorem read_all (loads : Msg β ε → Option Bool) (ms : List (Msg β ε)) (h : ∀ m ∈ ms, loads m = none) : readResults loads ms = (ms, true) := by
  induction ms with
  | nil => rfl
  | cons m ms ih =>
    unfold readResults
    rw [h m (by simp), ih (fun x hx => h x (by simp [hx]))]

theorem read_stop (loads : Msg β ε → Option Bool) (pre post : List (Msg β ε)) (m : Msg β ε) (h : ∀ x ∈ pre, loads x = none) (hm : loads m = some false) :
    readResults loads (pre ++ m :: post) = (pre, false) := by
  induction pre with
  | nil => simp [readResults, hm]
  | cons x pre ih =>
    simp only [List.cons_append, readResults]
    rw [h x (by simp), ih (fun y hy => h y (by simp [hy]))]

theorem read_sub (loads : Msg β ε → Option Bool) (ms : List (Msg β ε)) : (readResults loads ms).1.Sublist ms := by
  induction ms with
  | nil => simp [readResults]
  | cons m ms ih =>
    unfold readResults
    split
    · exact ih.cons₂ m
    · exact ih.cons m
    · exact List.nil_sublist _

end Machin.Pool
