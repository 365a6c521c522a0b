import Verif.Dirs.Model

/-! # Lemmas on file systems -/

namespace Machin.Dirs

/-- Whatever has a name below the root directory lies in a directory. -/
def WF (fs : FS) : Prop := ∀ q x k, get fs (q ++ [x]) = some k → isDir fs q = true

theorem get_filter (P : Path → Bool) (fs : FS) (q : Path) : get (fs.filter fun e => P e.1) q = if P q then get fs q else none := by
  induction fs with
  | nil => simp [get]
  | cons e fs ih =>
    obtain ⟨p, k⟩ := e
    by_cases hp : P p = true
    · simp only [List.filter_cons, hp, if_true, get]
      by_cases h : p = q
      · subst h; simp [hp]
      · simp [h, ih]
    · simp only [List.filter_cons, hp, get]
      by_cases h : p = q
      · subst h; simp [hp, ih]
      · simp [h, ih]

theorem get_unlink (fs : FS) (p q : Path) : get (unlink fs p) q = if q = p then none else get fs q := by
  unfold unlink
  rw [get_filter (fun a => a != p)]
  by_cases h : q = p <;> simp [h]

theorem get_rmtree (fs : FS) (p q : Path) : get (rmtree fs p) q = if p <+: q then none else get fs q := by
  unfold rmtree
  rw [get_filter (fun a => !p.isPrefixOf a)]
  by_cases h : p <+: q
  · simp [List.isPrefixOf_iff_prefix.mpr h, h]
  · have : p.isPrefixOf q = false := by
      cases hh : p.isPrefixOf q with
      | false => rfl
      | true => exact absurd (List.isPrefixOf_iff_prefix.mp hh) h
    simp [this, h]

theorem get_isSome (fs : FS) (q : Path) : (get fs q).isSome = true ↔ ∃ e ∈ fs, e.1 = q := by
  induction fs with
  | nil => simp [get]
  | cons e fs ih =>
    obtain ⟨p, k⟩ := e
    simp only [get]
    by_cases h : p = q
    · simp [h]
    · simp [h, ih]

theorem get_append (fs gs : FS) (q : Path) : get (fs ++ gs) q = if (get fs q).isSome then get fs q else get gs q := by
  induction fs with
  | nil => simp [get]
  | cons e fs ih =>
    obtain ⟨p, k⟩ := e
    simp only [List.cons_append, get]
    by_cases h : p = q
    · simp [h]
    · simp [h, ih]

theorem mem_names (fs : FS) (p : Path) (f : String) :
    f ∈ ((fs.filter fun e => e.1 != [] && e.1.dropLast == p).map fun e => e.1.getLastD "") ↔ (get fs (p ++ [f])).isSome = true := by
  rw [get_isSome, List.mem_map]
  constructor
  · rintro ⟨e, he, rfl⟩
    simp only [List.mem_filter, Bool.and_eq_true, bne_iff_ne, beq_iff_eq] at he
    refine ⟨e, he.1, ?_⟩
    obtain ⟨h1, h2, h3⟩ := he
    rw [← h3, List.getLastD_eq_getLast?, List.getLast?_eq_some_getLast h2]
    exact (List.dropLast_concat_getLast h2).symm
  · rintro ⟨e, he, h⟩
    refine ⟨e, ?_, ?_⟩
    · simp [he, h]
    · simp [h]

theorem wf_prefix {fs : FS} (h : WF fs) (q : Path) (x : String) (r : List String) (k : Kind) (hk : get fs (q ++ x :: r) = some k) :
    isDir fs q = true := by
  induction r generalizing q x with
  | nil => exact h q x k hk
  | cons y r ih =>
    have e : q ++ x :: y :: r = (q ++ [x]) ++ y :: r := by simp
    rw [e] at hk
    have hd := ih (q ++ [x]) y hk
    simp only [isDir, Bool.or_eq_true, decide_eq_true_eq] at hd
    rcases hd with hd | hd
    · simp at hd
    · exact h q x .dir hd

/-- Something below a named path makes that a directory. -/
theorem wf_child {fs : FS} (h : WF fs) (p : Path) (f : String) (r : List String) (k : Kind) (hk : get fs (p ++ f :: r) = some k) (hr : r ≠ []) :
    get fs (p ++ [f]) = some .dir := by
  cases r with
  | nil => exact absurd rfl hr
  | cons y r =>
    have e : p ++ f :: y :: r = (p ++ [f]) ++ y :: r := by simp
    rw [e] at hk
    have hd := wf_prefix h (p ++ [f]) y r k hk
    simp only [isDir, Bool.or_eq_true, decide_eq_true_eq] at hd
    rcases hd with hd | hd
    · simp at hd
    · exact hd

theorem prefix_snoc_lt {a : Path} {q : Path} {x : String} (h : a <+: q) : a <+: q ++ [x] := h.trans (List.prefix_append q [x])

theorem wf_rmtree {fs : FS} (h : WF fs) (a : Path) : WF (rmtree fs a) := by
  intro q x k hk
  rw [get_rmtree] at hk
  by_cases hp : a <+: q ++ [x]
  · simp [hp] at hk
  · simp only [hp, if_false] at hk
    have hd := h q x k hk
    have hq : ¬ a <+: q := fun hh => hp (prefix_snoc_lt hh)
    simp only [isDir, Bool.or_eq_true, decide_eq_true_eq] at hd ⊢
    rw [get_rmtree]
    simpa [hq] using hd

/-- Unlinking what is no directory is the same as removing all below. -/
theorem unlink_eq_rmtree {fs : FS} (h : WF fs) (p : Path) (f : String) (k : Kind) (hk : get fs (p ++ [f]) = some k) (hd : k ≠ .dir) (q : Path) :
    get (unlink fs (p ++ [f])) q = get (rmtree fs (p ++ [f])) q := by
  rw [get_unlink, get_rmtree]
  by_cases he : q = p ++ [f]
  · simp [he]
  · by_cases hp : p ++ [f] <+: q
    · obtain ⟨r, rfl⟩ := hp
      have hr : r ≠ [] := by rintro rfl; simp at he
      simp only [he, if_false, List.prefix_append, if_true]
      cases hg : get fs (p ++ [f] ++ r) with
      | none => rfl
      | some k' =>
        have e : p ++ [f] ++ r = p ++ f :: r := by simp
        rw [e] at hg
        have := wf_child h p f r k' hg hr
        rw [hk] at this
        exact absurd (Option.some.inj this) hd
    · simp [he, hp]

theorem isDir_congr {fs gs : FS} (h : ∀ q, get fs q = get gs q) (q : Path) : isDir fs q = isDir gs q := by
  simp [isDir, h q]

theorem wf_congr {fs gs : FS} (h : ∀ q, get fs q = get gs q) (hw : WF fs) : WF gs := by
  intro q x k hk
  rw [← h] at hk
  rw [← isDir_congr h]
  exact hw q x k hk

/-- A child that `prep_clear_dirs` removes. -/
def Removable (fs : FS) (p : Path) (f : String) : Prop := ∃ k, get fs (p ++ [f]) = some k ∧ k ≠ .special

theorem get_clearNames (p : Path) (names : List String) (fs : FS) (hw : WF fs) :
    WF (clearNames p names fs) ∧
    ∀ q, ((∃ f ∈ names, Removable fs p f ∧ p ++ [f] <+: q) → get (clearNames p names fs) q = none) ∧
      ((¬ ∃ f ∈ names, Removable fs p f ∧ p ++ [f] <+: q) → get (clearNames p names fs) q = get fs q) := by
  induction names generalizing fs with
  | nil => exact ⟨hw, fun q => ⟨by simp, fun _ => rfl⟩⟩
  | cons f names ih =>
    -- one step that removes all below `p ++ [f]`
    have step : ∀ fs' : FS, (∀ q, get fs' q = get (rmtree fs (p ++ [f])) q) → Removable fs p f →
        WF (clearNames p names fs') ∧
        ∀ q, ((∃ g ∈ f :: names, Removable fs p g ∧ p ++ [g] <+: q) → get (clearNames p names fs') q = none) ∧
          ((¬ ∃ g ∈ f :: names, Removable fs p g ∧ p ++ [g] <+: q) → get (clearNames p names fs') q = get fs q) := by
      intro fs' heq hrem
      have hw' : WF fs' := wf_congr (fun q => (heq q).symm) (wf_rmtree hw _)
      obtain ⟨h1, h2⟩ := ih fs' hw'
      refine ⟨h1, fun q => ⟨?_, ?_⟩⟩
      · rintro ⟨g, hg, hr, hp⟩
        by_cases hin : ∃ g ∈ names, Removable fs' p g ∧ p ++ [g] <+: q
        · exact (h2 q).1 hin
        · rw [(h2 q).2 hin, heq, get_rmtree]
          by_cases hpf : p ++ [f] <+: q
          · simp [hpf]
          · exfalso
            apply hin
            have hgf : g ≠ f := by rintro rfl; exact hpf hp
            refine ⟨g, ?_, ?_, hp⟩
            · simpa [hgf] using hg
            · obtain ⟨k, hk, hk'⟩ := hr
              refine ⟨k, ?_, hk'⟩
              rw [heq, get_rmtree]
              have : ¬ p ++ [f] <+: p ++ [g] := by
                rw [List.prefix_append_right_inj]
                simp [Ne.symm hgf]
              simp only [this, if_false, hk]
      · intro hno
        have hin : ¬ ∃ g ∈ names, Removable fs' p g ∧ p ++ [g] <+: q := by
          rintro ⟨g, hg, ⟨k, hk, hk'⟩, hp⟩
          apply hno
          refine ⟨g, List.mem_cons_of_mem _ hg, ⟨k, ?_, hk'⟩, hp⟩
          rw [heq, get_rmtree] at hk
          by_cases hh : p ++ [f] <+: p ++ [g]
          · simp [hh] at hk
          · simpa [hh] using hk
        have hpf : ¬ p ++ [f] <+: q := fun hpf => hno ⟨f, List.mem_cons_self, hrem, hpf⟩
        rw [(h2 q).2 hin, heq, get_rmtree]
        simp [hpf]
    have skip : ¬ Removable fs p f → WF (clearNames p names fs) ∧
        ∀ q, ((∃ g ∈ f :: names, Removable fs p g ∧ p ++ [g] <+: q) → get (clearNames p names fs) q = none) ∧
          ((¬ ∃ g ∈ f :: names, Removable fs p g ∧ p ++ [g] <+: q) → get (clearNames p names fs) q = get fs q) := by
      intro hnr
      obtain ⟨h1, h2⟩ := ih fs hw
      refine ⟨h1, fun q => ⟨?_, ?_⟩⟩
      · rintro ⟨g, hg, hr, hp⟩
        have hgf : g ≠ f := by rintro rfl; exact hnr hr
        exact (h2 q).1 ⟨g, by simpa [hgf] using hg, hr, hp⟩
      · intro hno
        exact (h2 q).2 fun ⟨g, hg, hr, hp⟩ => hno ⟨g, List.mem_cons_of_mem _ hg, hr, hp⟩
    simp only [clearNames]
    cases hk : get fs (p ++ [f]) with
    | none => exact skip fun ⟨k, h, _⟩ => by rw [hk] at h; cases h
    | some k =>
      cases k with
      | file c => exact step _ (unlink_eq_rmtree hw p f _ hk (by simp)) ⟨_, hk, by simp⟩
      | link a => exact step _ (unlink_eq_rmtree hw p f _ hk (by simp)) ⟨_, hk, by simp⟩
      | dir => exact step _ (fun _ => rfl) ⟨_, hk, by simp⟩
      | special => exact skip fun ⟨k, h, h'⟩ => by rw [hk] at h; exact h' (Option.some.inj h).symm

theorem mkdir_ok {fs fs' : FS} {p : Path} {c : String} (h : mkdir fs p c = (fs', .ok ())) :
    isDir fs p = true ∧ get fs (p ++ [c]) = none ∧ fs' = fs ++ [(p ++ [c], .dir)] := by
  unfold mkdir at h
  split at h
  · simp at h
  · rename_i h0
    split at h
    · rename_i h1
      simp only [Prod.mk.injEq, and_true] at h
      exact ⟨h1, by simpa using h0, h.symm⟩
    · split at h <;> simp at h

theorem isDir_isThere {fs : FS} {p : Path} (h : isDir fs p = true) : isThere fs p = true := by
  simp only [isDir, Bool.or_eq_true, decide_eq_true_eq] at h
  rcases h with h | h
  · simp [isThere, h]
  · simp [isThere, h]

/-- What a creation of directories may do: nothing there is changed, new entries are directories that satisfy `P`. -/
def Grows (P : Path → Prop) (fs fs' : FS) : Prop :=
  ∀ q, get fs' q = get fs q ∨ (get fs q = none ∧ get fs' q = some .dir ∧ P q)

theorem Grows.refl (P : Path → Prop) (fs : FS) : Grows P fs fs := fun _ => Or.inl rfl

theorem Grows.mono {P Q : Path → Prop} {fs fs' : FS} (h : Grows P fs fs') (hpq : ∀ q, P q → Q q) : Grows Q fs fs' := fun q =>
  (h q).imp id fun ⟨a, b, c⟩ => ⟨a, b, hpq q c⟩

theorem Grows.trans {P : Path → Prop} {a b c : FS} (h1 : Grows P a b) (h2 : Grows P b c) : Grows P a c := by
  intro q
  rcases h1 q with e1 | ⟨n1, d1, p1⟩ <;> rcases h2 q with e2 | ⟨n2, d2, p2⟩
  · exact Or.inl (e2.trans e1)
  · exact Or.inr ⟨e1 ▸ n2, d2, p2⟩
  · exact Or.inr ⟨n1, e2.trans d1, p1⟩
  · rw [d1] at n2; cases n2

theorem Grows.isDir {P : Path → Prop} {fs fs' : FS} (h : Grows P fs fs') {q : Path} (hd : isDir fs q = true) : isDir fs' q = true := by
  simp only [Dirs.isDir, Bool.or_eq_true, decide_eq_true_eq] at hd ⊢
  rcases hd with hd | hd
  · exact Or.inl hd
  · rcases h q with e | ⟨n, _, _⟩
    · exact Or.inr (e.trans hd)
    · rw [hd] at n; cases n

theorem mkdir_grows (fs : FS) (p : Path) (c : String) : Grows (fun q => q = p ++ [c]) fs (mkdir fs p c).1 := by
  unfold mkdir
  split
  · exact Grows.refl _ _
  · rename_i h0
    split
    · intro q
      rw [get_append]
      by_cases hq : q = p ++ [c]
      · subst hq
        right
        refine ⟨by simpa using h0, ?_, rfl⟩
        simp only [h0]
        simp [get]
      · left
        have : ¬ (p ++ [c] = q) := fun h => hq h.symm
        cases hg : get fs q with
        | none => simp [get, this]
        | some k => simp
    · split <;> exact Grows.refl _ _

theorem mkdir_wf {fs : FS} (h : WF fs) (p : Path) (c : String) : WF (mkdir fs p c).1 := by
  intro q x k hk
  have hg := mkdir_grows fs p c
  rcases hg (q ++ [x]) with e | ⟨_, _, e⟩
  · exact hg.isDir (h q x k (e ▸ hk))
  · obtain ⟨rfl, rfl⟩ : q = p ∧ x = c := by simpa using e
    apply hg.isDir
    cases hr : mkdir fs q x with
    | mk fs' r =>
      cases r with
      | ok _ => exact (mkdir_ok hr).1
      | error e =>
        unfold mkdir at hr
        split at hr
        · rename_i h0
          obtain ⟨k', hk'⟩ := Option.isSome_iff_exists.mp h0
          exact h q x k' hk'
        · split at hr
          · simp at hr
          · rename_i h0 h1
            exfalso
            have hh : (mkdir fs q x).1 = fs := by
              unfold mkdir
              simp only [h0, h1]
              split <;> (first | rfl | split <;> rfl)
            rw [hh] at hk
            simp [hk] at h0

theorem makedirsRev_grows (r : List String) (fs : FS) : Grows (fun q => q <+: r.reverse) fs (makedirsRev r fs).1 := by
  induction r generalizing fs with
  | nil => exact Grows.refl _ _
  | cons c rest ih =>
    have hm : ∀ gs : FS, Grows (fun q => q <+: (c :: rest).reverse) gs (mkdir gs rest.reverse c).1 := fun gs =>
      (mkdir_grows gs rest.reverse c).mono (by intro q hq; simp [hq])
    have hi := (ih fs).mono (Q := fun q => q <+: (c :: rest).reverse) (by
      intro q hq
      simp only [List.reverse_cons]
      exact hq.trans (List.prefix_append _ _))
    simp only [makedirsRev]
    split
    · exact hm fs
    · split
      · rename_i fs' h1; rw [h1] at hi; exact hi.trans (hm fs')
      · rename_i fs' h1; rw [h1] at hi; exact hi.trans (hm fs')
      · rename_i fs' e h1; rw [h1] at hi; exact hi

theorem makedirsRev_wf (r : List String) (fs : FS) (h : WF fs) : WF (makedirsRev r fs).1 := by
  induction r generalizing fs with
  | nil => exact h
  | cons c rest ih =>
    have hi := ih fs h
    simp only [makedirsRev]
    split
    · exact mkdir_wf h _ _
    · split
      · rename_i fs' h1; rw [h1] at hi; exact mkdir_wf hi _ _
      · rename_i fs' h1; rw [h1] at hi; exact mkdir_wf hi _ _
      · rename_i fs' e h1; rw [h1] at hi; exact hi

theorem makedirsRev_ok (r : List String) (fs fs' : FS) (h : makedirsRev r fs = (fs', .ok ())) : get fs' r.reverse = some .dir := by
  cases r with
  | nil => simp [makedirsRev] at h
  | cons c rest =>
    have hm : ∀ gs : FS, mkdir gs rest.reverse c = (fs', .ok ()) → get fs' (c :: rest).reverse = some .dir := by
      intro gs hg
      obtain ⟨_, h2, h3⟩ := mkdir_ok hg
      rw [h3, get_append]
      simp [h2, get]
    simp only [makedirsRev] at h
    split at h
    · exact hm _ h
    · split at h
      · exact hm _ h
      · exact hm _ h
      · simp at h

/-- It works when nothing on the way is something else than a directory. -/
theorem makedirsRev_works (r : List String) (fs : FS) (hd : ∀ q, q <+: r.reverse → isDir fs q = true ∨ get fs q = none)
    (hn : get fs r.reverse = none) (hne : r ≠ []) : (makedirsRev r fs).2 = .ok () := by
  induction r with
  | nil => exact absurd rfl hne
  | cons c rest ih =>
    have hpre : rest.reverse <+: (c :: rest).reverse := by simp
    have hmk : ∀ gs : FS, isDir gs rest.reverse = true → get gs (rest.reverse ++ [c]) = none → (mkdir gs rest.reverse c).2 = .ok () := by
      intro gs h1 h2
      simp [mkdir, h1, h2]
    have hn' : get fs (rest.reverse ++ [c]) = none := by simpa using hn
    simp only [makedirsRev]
    split
    · rename_i ht
      refine hmk fs ?_ hn'
      rcases hd _ hpre with h | h
      · exact h
      · simp only [isThere, h, Bool.or_false, decide_eq_true_eq] at ht
        simp [isDir, ht]
    · rename_i ht
      have hrne : rest ≠ [] := by
        rintro rfl
        simp [isThere] at ht
      have hrn : get fs rest.reverse = none := by
        rcases hd _ hpre with h | h
        · exact absurd (isDir_isThere h) ht
        · exact h
      have hi := ih (fun q hq => hd q (hq.trans hpre)) hrn hrne
      have hg := makedirsRev_grows rest fs
      cases hr : makedirsRev rest fs with
      | mk fs' res =>
        rw [hr] at hi hg
        simp only at hi
        subst hi
        refine hmk fs' ?_ ?_
        · simp [isDir, makedirsRev_ok rest fs fs' hr]
        · rcases hg (rest.reverse ++ [c]) with e | ⟨_, _, e⟩
          · exact e.trans hn'
          · have := e.length_le
            simp only [List.length_append, List.length_singleton] at this
            omega

theorem createDirs_grows (ps : List Path) (fs : FS) : Grows (fun q => ∃ p ∈ ps, q <+: p) fs (createDirs ps fs).1 := by
  induction ps generalizing fs with
  | nil => exact Grows.refl _ _
  | cons p ps ih =>
    have up : ∀ gs, Grows (fun q => ∃ a ∈ p :: ps, q <+: a) gs (createDirs ps gs).1 := fun gs =>
      (ih gs).mono fun q ⟨a, ha, hq⟩ => ⟨a, List.mem_cons_of_mem _ ha, hq⟩
    simp only [createDirs]
    split
    · exact up fs
    · have hm := (makedirsRev_grows p.reverse fs).mono (Q := fun q => ∃ a ∈ p :: ps, q <+: a)
        fun q hq => ⟨p, List.mem_cons_self, by simpa using hq⟩
      unfold makedirs
      split
      · rename_i fs' h1; rw [h1] at hm; exact hm.trans (up fs')
      · rename_i fs' e h1; rw [h1] at hm; exact hm

theorem createDirs_wf (ps : List Path) (fs : FS) (h : WF fs) : WF (createDirs ps fs).1 := by
  induction ps generalizing fs with
  | nil => exact h
  | cons p ps ih =>
    simp only [createDirs]
    split
    · exact ih fs h
    · have hm := makedirsRev_wf p.reverse fs h
      unfold makedirs
      split
      · rename_i fs' h1; rw [h1] at hm; exact ih fs' hm
      · rename_i fs' e h1; rw [h1] at hm; exact hm

end Machin.Dirs
