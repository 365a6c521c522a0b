import Verif.Pool.LoopLemmas
import Verif.Pool.Props

/-! # Properties: calls that end in any way (C252) -/

namespace Machin.Pool

open Spec

variable {β ε : Type}

/-- C252 in full: once all tasks have been taken, every task has a message with its job and chunk in the queue of results. -/
def C252_full : Prop :=
  ∀ (ser : Msg Nat Nat → Bool) (maxtasks : Option Nat) (n : Nat) (tasks : List (Todo Nat Nat)) (acts : List Act),
    (Shop.run ser maxtasks true n tasks acts).queue = [] →
    ∀ t ∈ tasks, ∃ m ∈ (Shop.run ser maxtasks true n tasks acts).out, m.job = t.job ∧ m.chunk = t.chunk

/-- C252 is violated: a call returns something that cannot be serialized (a lock, a generator); `put` raises in the worker, which ends without a message. -/
theorem C252_violated : ¬ C252_full := by
  intro h
  obtain ⟨m, hm, -⟩ := h (fun m => m.obj.toOption != some 7) none 1 [⟨0, 0, .returns 7⟩] [.round 0] (by decide) ⟨0, 0, .returns 7⟩ (by simp)
  revert hm
  have : (Shop.run (fun m : Msg Nat Nat => m.obj.toOption != some 7) none true 1 [⟨0, 0, .returns 7⟩] [.round 0]).out = [] := by decide
  rw [this]
  simp

/-- A call that raises `SystemExit` has no message either, in any pool. -/
theorem C252_violated_exit (ser : Msg β ε → Bool) (maxtasks : Option Nat) (n : Nat) (acts : List Act) :
    (Shop.run ser maxtasks true n [⟨0, 0, .exits⟩] acts).out = [] := by
  obtain ⟨taken, h1, h2, -⟩ := shop_split ser maxtasks true n [(⟨0, 0, .exits⟩ : Todo β ε)] acts
  rw [h2]
  cases taken with
  | nil => rfl
  | cons t ts =>
    simp only [List.cons_append, List.cons.injEq, List.append_eq_nil_iff] at h1
    obtain ⟨rfl, rfl, -⟩ := h1
    rfl

/-- If the initializer raises, no task is ever taken and all workers end again and again, without any exception in the pool. -/
theorem C252_violated_initializer (ser : Msg β ε → Bool) (maxtasks : Option Nat) (n : Nat) (tasks : List (Todo β ε)) (acts : List Act) :
    (Shop.run ser maxtasks false n tasks acts).queue = tasks ∧ (Shop.run ser maxtasks false n tasks acts).out = [] := by
  rw [shop_dead]
  exact ⟨rfl, rfl⟩

/-- In every history, with any number of workers, replacements and any limit of tasks per worker: tasks are taken in order, and the queue of results holds, in this order, exactly the messages
of those taken tasks that can be sent. -/
theorem C252_history (ser : Msg β ε → Bool) (maxtasks : Option Nat) (ok : Bool) (n : Nat) (tasks : List (Todo β ε)) (acts : List Act) :
    ∃ taken, taken ++ (Shop.run ser maxtasks ok n tasks acts).queue = tasks ∧ (Shop.run ser maxtasks ok n tasks acts).out = sent ser taken := by
  obtain ⟨taken, h1, h2, -⟩ := shop_split ser maxtasks ok n tasks acts
  exact ⟨taken, h1, h2⟩

/-- C252, the part that holds: if all messages can be sent and no call leaves the interpreter, then after all tasks have been taken the results are those of the tasks, one each, in order. -/
theorem C252_sound_partial (ser : Msg β ε → Bool) (maxtasks : Option Nat) (n : Nat) (tasks : List (Todo β ε)) (acts : List Act)
    (hs : ∀ t ∈ tasks, Sound ser t) (hq : (Shop.run ser maxtasks true n tasks acts).queue = []) :
    (Shop.run ser maxtasks true n tasks acts).out.map some = tasks.map message := by
  obtain ⟨taken, h1, h2⟩ := C252_history ser maxtasks true n tasks acts
  rw [hq, List.append_nil] at h1
  subst h1
  rw [h2]
  clear h2 hq
  induction taken with
  | nil => rfl
  | cons t ts ih =>
    obtain ⟨m, hm, hr⟩ := hs t (by simp)
    simp only [sent, hm, hr, if_true, List.map_cons, ih (fun x hx => hs x (by simp [hx]))]

/-- A task that cannot be answered harms no other: if the initializer returns and the pool is maintained before every round, then after as many rounds as there are tasks, by whichever
workers, all tasks have been taken and exactly those whose message can be sent have theirs. -/
theorem C252_others (ser : Msg β ε → Bool) (maxtasks : Option Nat) (n : Nat) (tasks : List (Todo β ε)) (is : List Nat) (hi : ∀ i ∈ is, i < n)
    (hl : tasks.length ≤ is.length) :
    (Shop.run ser maxtasks true n tasks (is.flatMap fun i => [.maintain, .round i])).queue = [] ∧
    (Shop.run ser maxtasks true n tasks (is.flatMap fun i => [.maintain, .round i])).out = sent ser tasks := by
  have key : ∀ (is : List Nat) (s : Shop β ε), s.workers.length = n → (∀ i ∈ is, i < n) →
      ((is.flatMap fun i => [Act.maintain, .round i]).foldl (Shop.step ser maxtasks true) s).queue = s.queue.drop is.length := by
    intro is
    induction is with
    | nil => intro s _ _; simp
    | cons i is ih =>
      intro s hn hi
      obtain ⟨h1, h2⟩ := shop_progress ser maxtasks s i (by rw [hn]; exact hi i (by simp))
      simp only [List.flatMap_cons, List.cons_append, List.nil_append, List.foldl_cons]
      rw [ih _ (by rw [h2, hn]) (fun j hj => hi j (by simp [hj])), h1, List.drop_drop, List.length_cons, Nat.add_comm]
  have hq : (Shop.run ser maxtasks true n tasks (is.flatMap fun i => [.maintain, .round i])).queue = [] := by
    unfold Shop.run
    rw [key is _ (by simp) hi]
    simpa using hl
  refine ⟨hq, ?_⟩
  obtain ⟨taken, h1, h2⟩ := C252_history ser maxtasks true n tasks (is.flatMap fun i => [.maintain, .round i])
  rw [hq, List.append_nil] at h1
  rw [h2, h1]

/-- Two workers, one task that exits; the other two have their messages. -/
example : (Shop.run (fun _ => true) (some 1) true 2 [⟨0, 0, .exits⟩, ⟨1, 0, .returns 5⟩, ⟨2, 0, .raises 6⟩] ([0, 1, 0].flatMap fun i => [.maintain, .round i])).out =
    [(⟨1, 0, .ok 5⟩ : Msg Nat Nat), ⟨2, 0, .error 6⟩] :=
  (C252_others _ _ _ _ [0, 1, 0] (by decide) (by decide)).2

/-- A worker does not do more tasks than its limit: from one replacement to the next a worker that ended takes nothing. -/
theorem C252_ended (ser : Msg β ε → Bool) (maxtasks : Option Nat) (ok : Bool) (s : Shop β ε) (i : Nat) (h : s.workers[i]? = some none) :
    s.step ser maxtasks ok (.round i) = s := by
  unfold Shop.step
  simp only
  split
  · rename_i hw _
    rw [h] at hw
    simp at hw
  · rfl

/-- The number of completed tasks of a worker that lives is below the limit. -/
theorem C252_limit (ser : Msg β ε → Bool) (k : Nat) (hk : 1 ≤ k) (ok : Bool) (n : Nat) (tasks : List (Todo β ε)) (acts : List Act) :
    ∀ c, some c ∈ (Shop.run ser (some k) ok n tasks acts).workers → c < k := by
  induction acts using List.reverseRecOn with
  | nil =>
    intro c hc
    simp only [Shop.run, List.foldl_nil, List.mem_replicate, startWorker] at hc
    cases ok <;> simp at hc
    omega
  | append_singleton acts a ih =>
    rw [shop_snoc]
    generalize Shop.run ser (some k) ok n tasks acts = s at *
    cases a with
    | maintain =>
      intro c hc
      simp only [Shop.step, List.mem_map] at hc
      obtain ⟨w, hw, hx⟩ := hc
      cases w with
      | none =>
        cases ok <;> simp [startWorker] at hx
        omega
      | some c' =>
        simp only [Option.some.injEq] at hx
        subst hx
        exact ih _ hw
    | round i =>
      unfold Shop.step
      simp only
      split
      · intro c hc
        rcases List.mem_or_eq_of_mem_set hc with h | h
        · exact ih c h
        · unfold workRound at h
          simp only at h
          split at h
          · simp at h
          · split at h
            · simp at h
            · simp only at h
              split at h
              · simp only [Option.some.injEq] at h
                omega
              · simp at h
      · exact ih

/-- The job of a task that cannot be answered waits for ever: no history of the workers and no order in which the messages are handed out answers it, and the pool cannot be closed. -/
theorem C252_waits (ser : Msg β ε → Bool) (maxtasks : Option Nat) (ok : Bool) (n : Nat) (tasks : List (Todo β ε)) (acts : List Act)
    (pre : List (Event β ε)) (cb ecb : Bool) (ms : List (Msg β ε)) (hms : ms ⊆ (Shop.run ser maxtasks ok n tasks acts).out)
    (hbad : ∀ t ∈ tasks, t.job = (submits pre).length → ¬ Sound ser t) :
    let p := Pool.run (pre ++ .submit (.apply cb ecb) :: ms.map event)
    p.handle? (submits pre).length = some (.async (AsyncRes.new cb ecb)) ∧ p.canFinish = false := by
  have hr := C31_routing pre (.apply cb ecb) (ms.map event)
  have hd : deliveries (submits pre).length (ms.map event) = [] := by
    have : ∀ m ∈ ms, m.job ≠ (submits pre).length := by
      intro m hm hj
      obtain ⟨taken, h1, h2⟩ := C252_history ser maxtasks ok n tasks acts
      have hm' := hms hm
      rw [h2, sent_mem] at hm'
      obtain ⟨t, ht, h3, h4⟩ := hm'
      have ht' : t ∈ tasks := by rw [← h1]; simp [ht]
      exact hbad t ht' (by rw [← (message_job h3).1, hj]) ⟨m, h3, h4⟩
    clear hms hr
    induction ms with
    | nil => rfl
    | cons m ms ih =>
      simp only [List.map_cons, event, deliveries]
      rw [if_neg (this m (by simp))]
      exact ih (fun x hx => this x (by simp [hx]))
  simp only [hd, receive, Submit.handle] at hr
  refine ⟨hr.1, ?_⟩
  have hs := hr.2.2 trivial
  unfold Pool.canFinish
  cases hc : (Pool.run (pre ++ .submit (.apply cb ecb) :: ms.map event)).cache with
  | nil => rw [hc] at hs; simp at hs
  | cons x xs => rfl

/-- Non-vacuity: job 0 exits, its only task is not sound, the message of job 1 is handed out. -/
example : (Pool.run ([] ++ .submit (.apply false false) :: [(⟨1, 0, .ok 5⟩ : Msg Nat Nat)].map event)).canFinish = false :=
  (C252_waits (fun _ => true) none true 1 [⟨0, 0, .exits⟩, ⟨1, 0, .returns 5⟩] ([0, 0].flatMap fun i => [.maintain, .round i]) [] false false [⟨1, 0, .ok 5⟩]
    (by rw [(C252_others _ _ _ _ [0, 0] (by decide) (by decide)).2]; simp [sent, message])
    (by
      intro t ht hj
      simp only [List.mem_cons, List.not_mem_nil, or_false] at ht
      rcases ht with rfl | rfl
      · rintro ⟨m, hm, -⟩; simp [message] at hm
      · simp [submits] at hj)).2

/-! ### Reading the results -/

/-- The thread that reads results hands out every message, in order, if all can be rebuilt. -/
theorem C252_read_partial (loads : Msg β ε → Option Bool) (ms : List (Msg β ε)) (h : ∀ m ∈ ms, loads m = none) : readResults loads ms = (ms, true) :=
  read_all loads ms h

/-- A message that cannot be rebuilt (an exception class whose constructor takes other arguments than it passes on: `TypeError`) ends the thread: exactly the messages before it
are handed out, whatever comes later. -/
theorem C252_violated_read (loads : Msg β ε → Option Bool) (pre post : List (Msg β ε)) (m : Msg β ε) (h : ∀ x ∈ pre, loads x = none) (hm : loads m = some false) :
    readResults loads (pre ++ m :: post) = (pre, false) := read_stop loads pre post m h hm

/-- In any case messages are handed out in order and none twice; while the thread lives only those are missing whose rebuilding raises `TimeoutError`. -/
theorem C252_read (loads : Msg β ε → Option Bool) (ms : List (Msg β ε)) :
    (readResults loads ms).1.Sublist ms ∧ ((readResults loads ms).2 = true → (readResults loads ms).1 = ms.filter fun m => loads m == none) := by
  refine ⟨read_sub loads ms, ?_⟩
  induction ms with
  | nil => intro _; rfl
  | cons m ms ih =>
    intro h
    unfold readResults at h ⊢
    rcases hm : loads m with _ | b
    · rw [hm] at h
      simp only at h ⊢
      rw [ih h, List.filter_cons_of_pos (by simp [hm])]
    · cases b with
      | true =>
        rw [hm] at h
        simp only at h ⊢
        rw [ih h, List.filter_cons_of_neg (by simp [hm])]
      | false =>
        rw [hm] at h
        simp at h

example : readResults (fun m : Msg Nat Nat => if m.obj = .error 3 then some false else none) [⟨0, 0, .ok 1⟩, ⟨1, 0, .error 3⟩, ⟨2, 0, .ok 2⟩] = ([⟨0, 0, .ok 1⟩], false) :=
  C252_violated_read _ [⟨0, 0, .ok 1⟩] _ _ (by simp) (by simp)

end Machin.Pool
