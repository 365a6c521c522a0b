import Verif.Replay.Lemmas

/-! # The two dictionaries of the buffer are mutually inverse, whatever the storage contains -/

namespace Machin.Replay

open Spec

/-- `transition_episode_number` and `episode_transition_handles` are mutually inverse. -/
structure MapInv {τ : Type} (b : Buffer τ) : Prop where
  toEp : ∀ h e, b.ten.get? h = some e → ∃ hs, b.eth.get? e = some hs ∧ h ∈ hs
  toHandles : ∀ e hs, b.eth.get? e = some hs → e < b.counter ∧ hs.Nodup ∧ ∀ h ∈ hs, b.ten.get? h = some e

theorem MapInv.new (τ : Type) (n : Nat) : MapInv (Buffer.new τ n) :=
  ⟨by intro h e he; simp [Buffer.new] at he, by intro e hs he; simp [Buffer.new] at he⟩

theorem MapInv.clear {τ : Type} {b : Buffer τ} (h : MapInv b) : MapInv b.clear := ⟨h.toEp, h.toHandles⟩

theorem popAll_ok (hs : List Nat) : ∀ (ten : PyDict Nat Nat), hs.Nodup → (∀ h ∈ hs, ten.get? h ≠ none) →
    ∃ ten', popAll hs ten = (ten', .ok ()) ∧ ∀ k, ten'.get? k = if k ∈ hs then none else ten.get? k := by
  induction hs with
  | nil => intro ten _ _; exact ⟨ten, rfl, by simp⟩
  | cons h hs ih =>
    intro ten hnd hmem
    rw [List.nodup_cons] at hnd
    have hm : ten.mem h = true := by
      rw [PyDict.mem_iff]
      apply Classical.byContradiction
      intro hc
      exact hmem h (by simp) ((PyDict.get?_eq_none_iff _ _).2 hc)
    obtain ⟨ten', h1, h2⟩ := ih (ten.erase h) hnd.2 (by
      intro k hk
      rw [PyDict.get?_erase, if_neg (by rintro rfl; exact hnd.1 hk)]
      exact hmem k (by simp [hk]))
    refine ⟨ten', by simp only [popAll, hm, if_true, h1], ?_⟩
    intro k
    rw [h2 k, PyDict.get?_erase]
    by_cases e1 : k = h
    · subst e1; simp
    · simp [e1]

/-- Invariant of the assignment loop of episode `n`, which has assigned the handles `done`. -/
structure LoopInv (n : Nat) (done : List Nat) (ten : PyDict Nat Nat) (eth : PyDict Nat (List Nat)) : Prop where
  toEp : ∀ h e, ten.get? h = some e → (e = n ∧ h ∈ done) ∨ ∃ hs, eth.get? e = some hs ∧ h ∈ hs
  toHandles : ∀ e hs, eth.get? e = some hs → e < n ∧ hs.Nodup ∧ ∀ h ∈ hs, ten.get? h = some e
  done : ∀ h ∈ done, ten.get? h = some n

theorem assignLoop_ok (n : Nat) (hs : List Nat) : ∀ (done : List Nat) (ten : PyDict Nat Nat)
    (eth : PyDict Nat (List Nat)), LoopInv n done ten eth → (done ++ hs).Nodup →
    ∃ ten' eth', assignLoop n hs ten eth = (ten', eth', .ok ()) ∧ LoopInv n (done ++ hs) ten' eth' ∧
      ∀ e ks, eth.get? e = some ks → (∀ h ∈ hs, h ∉ ks) → eth'.get? e = some ks := by
  induction hs with
  | nil => intro done ten eth hinv _; exact ⟨ten, eth, rfl, by simpa using hinv, fun _ _ h _ => h⟩
  | cons h hs ih =>
    intro done ten eth hinv hnd
    have hnd' : ((done ++ [h]) ++ hs).Nodup := by simpa using hnd
    have hnotdone : h ∉ done := by
      rw [List.nodup_append] at hnd
      intro hm
      exact hnd.2.2 h hm h (by simp) rfl
    have happ : done ++ h :: hs = (done ++ [h]) ++ hs := by simp
    cases hg : ten.get? h with
    | none =>
      have hinv' : LoopInv n (done ++ [h]) (ten.set h n) eth := by
        refine ⟨?_, ?_, ?_⟩
        · intro k e hk
          rw [PyDict.get?_set] at hk
          by_cases e1 : k = h
          · rw [if_pos e1] at hk
            left; cases hk; exact ⟨rfl, by simp [e1]⟩
          · rw [if_neg e1] at hk
            rcases hinv.toEp k e hk with ⟨h1, h2⟩ | h1
            · left; exact ⟨h1, by simp [h2]⟩
            · right; exact h1
        · intro e ks hks
          obtain ⟨h1, h2, h3⟩ := hinv.toHandles e ks hks
          refine ⟨h1, h2, ?_⟩
          intro k hk
          rw [PyDict.get?_set, if_neg]
          · exact h3 k hk
          · rintro rfl
            have := h3 k hk
            rw [hg] at this; cases this
        · intro k hk
          rw [PyDict.get?_set]
          by_cases e1 : k = h
          · rw [if_pos e1]
          · rw [if_neg e1]
            apply hinv.done
            simpa [e1] using hk
      obtain ⟨ten', eth', h1, h2, h3⟩ := ih (done ++ [h]) (ten.set h n) eth hinv' hnd'
      exact ⟨ten', eth', by simp only [assignLoop, hg, h1], by rw [happ]; exact h2,
        fun e ks he hd => h3 e ks he (fun k hk => hd k (by simp [hk]))⟩
    | some old =>
      obtain ⟨olds, ho1, ho2⟩ : ∃ olds, eth.get? old = some olds ∧ h ∈ olds := by
        rcases hinv.toEp h old hg with ⟨_, h2⟩ | h1
        · exact absurd h2 hnotdone
        · exact h1
      obtain ⟨hlt, hond, hoten⟩ := hinv.toHandles old olds ho1
      obtain ⟨ten1, hp1, hp2⟩ := popAll_ok olds ten hond (fun k hk => by rw [hoten k hk]; simp)
      have hinv' : LoopInv n (done ++ [h]) (ten1.set h n) (eth.erase old) := by
        refine ⟨?_, ?_, ?_⟩
        · intro k e hk
          rw [PyDict.get?_set] at hk
          by_cases e1 : k = h
          · rw [if_pos e1] at hk
            left; cases hk; exact ⟨rfl, by simp [e1]⟩
          · rw [if_neg e1, hp2] at hk
            by_cases hko : k ∈ olds
            · rw [if_pos hko] at hk; cases hk
            · rw [if_neg hko] at hk
              rcases hinv.toEp k e hk with ⟨h1, h2⟩ | ⟨ks, h1, h2⟩
              · left; exact ⟨h1, by simp [h2]⟩
              · right
                refine ⟨ks, ?_, h2⟩
                rw [PyDict.get?_erase, if_neg]
                · exact h1
                · rintro rfl
                  rw [ho1] at h1; cases h1
                  exact hko h2
        · intro e ks hks
          rw [PyDict.get?_erase] at hks
          by_cases e1 : e = old
          · rw [if_pos e1] at hks; cases hks
          · rw [if_neg e1] at hks
            obtain ⟨h1, h2, h3⟩ := hinv.toHandles e ks hks
            refine ⟨h1, h2, ?_⟩
            intro k hk
            have hk3 := h3 k hk
            rw [PyDict.get?_set, if_neg]
            · rw [hp2, if_neg]
              · exact hk3
              · intro hko
                rw [hoten k hko] at hk3
                cases hk3
                exact e1 rfl
            · rintro rfl
              rw [hg] at hk3
              cases hk3
              exact e1 rfl
        · intro k hk
          rw [PyDict.get?_set]
          by_cases e1 : k = h
          · rw [if_pos e1]
          · rw [if_neg e1]
            have hkd : k ∈ done := by simpa [e1] using hk
            have := hinv.done k hkd
            rw [hp2, if_neg]
            · exact this
            · intro hko
              rw [hoten k hko] at this
              cases this
              omega
      obtain ⟨ten', eth', h1, h2, h3⟩ := ih (done ++ [h]) (ten1.set h n) (eth.erase old) hinv' hnd'
      refine ⟨ten', eth', by simp only [assignLoop, hg, ho1, hp1, h1], by rw [happ]; exact h2, ?_⟩
      intro e ks he hd
      refine h3 e ks ?_ (fun k hk => hd k (by simp [hk]))
      rw [PyDict.get?_erase, if_neg]
      · exact he
      · rintro rfl
        rw [ho1] at he
        cases he
        exact hd h (by simp) ho2

/-- Storing into any buffer with consistent dictionaries and a ring storage: the storage gets the episode, the
dictionaries stay consistent, the handles of the new episode are recorded. -/
theorem storeEpisode_map {ι τ : Type} {N : Nat} {flat : List τ} (conv : ι → Except Err τ) {b : Buffer τ}
    (hs : SInv N flat b.storage) (hm : MapInv b) (ep : List ι) (ys : List τ) (h0 : ep ≠ [])
    (hc : ep.mapM conv = .ok ys) (hle : ep.length ≤ N) :
    ∃ b', b.storeEpisode conv ep = (b', .ok ()) ∧ SInv N (flat ++ ys) b'.storage ∧ MapInv b' ∧
      b'.counter = b.counter + 1 ∧ b'.eth.get? b.counter = some (slots N flat.length ys.length) ∧
      ∀ e ks, b.eth.get? e = some ks → (∀ h ∈ slots N flat.length ys.length, h ∉ ks) → b'.eth.get? e = some ks := by
  have hlen : ys.length = ep.length := mapM_length conv ep ys hc
  obtain ⟨s', hstore, hs'⟩ := storeEpisode_inv (ep := ys) hs (by omega)
  have h0' : ¬ ep.length = 0 := by simpa using h0
  obtain ⟨ten', eth', h1, h2, h3⟩ := assignLoop_ok b.counter (slots N flat.length ys.length) [] b.ten b.eth
    ⟨fun h e he => Or.inr (hm.toEp h e he), hm.toHandles, by simp⟩ (by simpa using slots_nodup (by omega))
  rw [List.nil_append] at h2
  refine ⟨{ storage := s', ten := ten', eth := eth'.set b.counter (slots N flat.length ys.length),
            counter := b.counter + 1 }, ?_, hs', ⟨?_, ?_⟩, rfl, ?_, ?_⟩
  · simp only [Buffer.storeEpisode, h0', if_false, convAll_eq, hc, hstore, h1]
  · intro h e he
    rcases h2.toEp h e he with ⟨rfl, hm⟩ | ⟨ks, hk1, hk2⟩
    · exact ⟨_, by rw [PyDict.get?_set_self], hm⟩
    · refine ⟨ks, ?_, hk2⟩
      have := (h2.toHandles e ks hk1).1
      rw [PyDict.get?_set_ne _ (by omega)]
      exact hk1
  · intro e ks hks
    simp only at hks
    rw [PyDict.get?_set] at hks
    by_cases e1 : e = b.counter
    · rw [if_pos e1] at hks
      cases hks
      subst e1
      exact ⟨by simp, slots_nodup (by omega), h2.done⟩
    · rw [if_neg e1] at hks
      obtain ⟨k1, k2, k3⟩ := h2.toHandles e ks hks
      exact ⟨by simp only; omega, k2, k3⟩
  · rw [PyDict.get?_set_self]
  · intro e ks he hd
    have := (hm.toHandles e ks he).1
    simp only
    rw [PyDict.get?_set_ne _ (by omega)]
    exact h3 e ks he hd

/-- A rejected store keeps the dictionaries consistent. -/
theorem MapInv.counter {τ : Type} {b : Buffer τ} (h : MapInv b) : MapInv { b with counter := b.counter + 1 } :=
  ⟨h.toEp, fun e hs he => by
    obtain ⟨h1, h2, h3⟩ := h.toHandles e hs he
    exact ⟨Nat.lt_succ_of_lt h1, h2, h3⟩⟩

end Machin.Replay
