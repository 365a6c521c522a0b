import Verif.Build.SpecAlgs

/-! # Lemmas for C240 -/

namespace Machin.Build.Algs

variable {ν : Type}

/-- Every read finds a basic attribute or one written before; indexes are in range. -/
def Safe (n : Nat) : List (Nat × String) → List Op → Prop
  | _, [] => True
  | w, .read i k :: ops => i < n ∧ (k ∈ Spec.base ∨ (i, k) ∈ w) ∧ Safe n w ops
  | w, .write i k :: ops => i < n ∧ Safe n ((i, k) :: w) ops

/-- The assignments. -/
def writes : List Op → List (Nat × String)
  | [] => []
  | .read _ _ :: ops => writes ops
  | .write i k :: ops => (i, k) :: writes ops

theorem writes_append (a b : List Op) : writes (a ++ b) = writes a ++ writes b := by
  induction a with
  | nil => rfl
  | cons x a ih => cases x <;> simp [writes, ih]

theorem Safe.mono {n : Nat} {ops : List Op} : ∀ {w w' : List (Nat × String)}, (∀ x ∈ w, x ∈ w') → Safe n w ops → Safe n w' ops := by
  induction ops with
  | nil => intro w w' _ _; trivial
  | cons o ops ih =>
    intro w w' hw hs
    cases o with
    | read i k => exact ⟨hs.1, hs.2.1.imp id (hw _), ih hw hs.2.2⟩
    | write i k =>
      refine ⟨hs.1, ih ?_ hs.2⟩
      intro x hx
      rcases List.mem_cons.1 hx with rfl | hx
      · exact List.mem_cons_self
      · exact List.mem_cons_of_mem _ (hw x hx)

theorem Safe.append {n : Nat} {a b : List Op} : ∀ {w : List (Nat × String)}, Safe n w a → Safe n (writes a ++ w) b → Safe n w (a ++ b) := by
  induction a with
  | nil => intro w _ hb; exact hb
  | cons o a ih =>
    intro w ha hb
    cases o with
    | read i k => exact ⟨ha.1, ha.2.1, ih ha.2.2 hb⟩
    | write i k =>
      refine ⟨ha.1, ih ha.2 (hb.mono ?_)⟩
      intro x hx
      simp only [writes, List.cons_append, List.mem_cons, List.mem_append] at hx ⊢
      rcases hx with h | h | h
      · exact .inr (.inl h)
      · exact .inl h
      · exact .inr (.inr h)

theorem Safe.flatMap {n : Nat} {α : Type} {f : α → List Op} {l : List α} : ∀ {w : List (Nat × String)}, (∀ x ∈ l, Safe n w (f x)) →
    Safe n w (l.flatMap f) := by
  induction l with
  | nil => intro w _; trivial
  | cons x l ih =>
    intro w h
    rw [List.flatMap_cons]
    refine (h x List.mem_cons_self).append (ih fun y hy => (h y (List.mem_cons_of_mem _ hy)).mono ?_)
    intro z hz
    exact List.mem_append_right _ hz

theorem writes_flatMap {α : Type} (f : α → List Op) (l : List α) : writes (l.flatMap f) = l.flatMap fun x => writes (f x) := by
  induction l with
  | nil => rfl
  | cons x l ih => simp [List.flatMap_cons, writes_append, ih]

/-- An assignment an object refuses. -/
def Refused (items : List (Item ν)) (x : Nat × String) : Prop :=
  ∃ y, items[x.1]? = some y ∧ y.isObj = true ∧ x.2 ∉ y.attrs.keys

theorem Item.set_ok {x y : Item ν} {k : String} {v : ν} (h : x.set k v = .ok y) : y = { x with attrs := x.attrs.set k v } := by
  unfold Item.set at h
  split at h
  · cases h
  · exact (Except.ok.inj h).symm

/-- Accesses that are safe end well exactly if no object refuses an assignment; otherwise with `RuntimeError`. -/
theorem run_safe (val : Nat → String → ν) (ops : List Op) : ∀ (items : List (Item ν)) (w : List (Nat × String)),
    Safe items.length w ops → (∀ x ∈ items, ∀ k ∈ Spec.base, k ∈ x.attrs.keys) →
    (∀ x ∈ w, ∀ y, items[x.1]? = some y → x.2 ∈ y.attrs.keys) →
    (run val ops items).1.length = items.length ∧
    (((run val ops items).2 = .ok () ∧ (∀ x ∈ writes ops, ¬ Refused items x) ∧
        ∀ i y, items[i]? = some y → ∃ z, (run val ops items).1[i]? = some z ∧ z.isObj = y.isObj ∧
          ∀ k, z.attrs.get? k = if (i, k) ∈ writes ops then some (val i k) else y.attrs.get? k) ∨
      ((run val ops items).2 = .error .runtime ∧ ∃ x ∈ writes ops, Refused items x)) := by
  induction ops with
  | nil =>
    intro items w _ _ _
    refine ⟨rfl, .inl ⟨rfl, by simp [writes], ?_⟩⟩
    intro i y hy
    exact ⟨y, hy, rfl, by simp [writes]⟩
  | cons o ops ih =>
    intro items w hs hb hw
    cases o with
    | read i k =>
      obtain ⟨hlt, hk, hs⟩ := hs
      have hi : items[i]? = some items[i] := List.getElem?_eq_getElem hlt
      have hmem : k ∈ items[i].attrs.keys := by
        rcases hk with hk | hk
        · exact hb _ (List.getElem_mem hlt) k hk
        · exact hw (i, k) hk _ hi
      have hget : ∃ v, items[i].get k = .ok v := by
        have := (PyDict.get?_isSome_iff items[i].attrs k).2 hmem
        obtain ⟨v, hv⟩ := Option.isSome_iff_exists.1 this
        exact ⟨v, by simp [Item.get, hv]⟩
      obtain ⟨v, hv⟩ := hget
      have he : run val (.read i k :: ops) items = run val ops items := by
        rw [run]
        simp only [hi, hv]
      rw [he]
      exact ih items w hs hb hw
    | write i k =>
      obtain ⟨hlt, hs⟩ := hs
      have hi : items[i]? = some items[i] := List.getElem?_eq_getElem hlt
      by_cases hr : items[i].isObj = true ∧ k ∉ items[i].attrs.keys
      · have he : run val (.write i k :: ops) items = (items, .error .runtime) := by
          rw [run]
          simp only [hi, Item.set, if_pos hr]
        rw [he]
        exact ⟨rfl, .inr ⟨rfl, (i, k), by simp [writes], items[i], hi, hr.1, hr.2⟩⟩
      · have he : run val (.write i k :: ops) items =
            run val ops (items.set i { items[i] with attrs := items[i].attrs.set k (val i k) }) := by
          rw [run]
          simp only [hi, Item.set, if_neg hr]
        rw [he]
        have hsub : ∀ c ∈ items[i].attrs.keys, c ∈ (items[i].attrs.set k (val i k)).keys := by
          intro c hc
          rw [← PyDict.get?_isSome_iff] at hc ⊢
          rw [PyDict.get?_set]
          split
          · rfl
          · exact hc
        have hkk : k ∈ (items[i].attrs.set k (val i k)).keys := by
          rw [← PyDict.get?_isSome_iff, PyDict.get?_set_self]
          rfl
        have hlk : ∀ j y, (items.set i { items[i] with attrs := items[i].attrs.set k (val i k) })[j]? = some y →
            (j = i ∧ y = { items[i] with attrs := items[i].attrs.set k (val i k) }) ∨ (j ≠ i ∧ items[j]? = some y) := by
          intro j y hy
          by_cases hj : j = i
          · subst hj
            rw [List.getElem?_set_self hlt] at hy
            exact .inl ⟨rfl, (Option.some.inj hy).symm⟩
          · rw [List.getElem?_set_ne (fun e => hj e.symm)] at hy
            exact .inr ⟨hj, hy⟩
        obtain ⟨i1, i2⟩ := ih (items.set i { items[i] with attrs := items[i].attrs.set k (val i k) }) ((i, k) :: w)
          (by rw [List.length_set]; exact hs)
          (by
            intro x hx c hc
            rcases List.mem_or_eq_of_mem_set hx with hx | rfl
            · exact hb x hx c hc
            · exact hsub c (hb _ (List.getElem_mem hlt) c hc))
          (by
            intro x hx y hy
            rcases hlk _ _ hy with ⟨hj, rfl⟩ | ⟨hj, hy'⟩
            · rcases List.mem_cons.1 hx with rfl | hx
              · exact hkk
              · exact hsub _ (hw x hx _ (by rw [hj]; exact hi))
            · rcases List.mem_cons.1 hx with rfl | hx
              · exact absurd rfl hj
              · exact hw x hx y hy')
        have href : ∀ x, Refused (items.set i { items[i] with attrs := items[i].attrs.set k (val i k) }) x → Refused items x := by
          rintro x ⟨y, hy, ho, hn⟩
          rcases hlk _ _ hy with ⟨hj, rfl⟩ | ⟨hj, hy'⟩
          · exact ⟨items[i], by rw [hj]; exact hi, ho, fun hc => hn (hsub _ hc)⟩
          · exact ⟨y, hy', ho, hn⟩
        have href' : ∀ x, Refused items x → x = (i, k) ∨ Refused (items.set i { items[i] with attrs := items[i].attrs.set k (val i k) }) x := by
          rintro ⟨j, c⟩ ⟨y, hy, ho, hn⟩
          by_cases hj : j = i
          · subst hj
            simp only at hy
            rw [hi] at hy
            cases hy
            by_cases hc : c = k
            · exact .inl (by rw [hc])
            · refine .inr ⟨{ items[j] with attrs := items[j].attrs.set k (val j k) }, List.getElem?_set_self hlt, ho, ?_⟩
              intro hm
              simp only at hm
              rw [← PyDict.get?_isSome_iff, PyDict.get?_set_ne _ hc, PyDict.get?_isSome_iff] at hm
              exact hn hm
          · exact .inr ⟨y, by simp only; rw [List.getElem?_set_ne (fun e => hj e.symm)]; exact hy, ho, hn⟩
        refine ⟨by rw [i1, List.length_set], ?_⟩
        rcases i2 with ⟨e1, e2, e3⟩ | ⟨e1, x, hx, hrx⟩
        · refine .inl ⟨e1, ?_, ?_⟩
          · intro x hx hrf
            simp only [writes, List.mem_cons] at hx
            rcases href' x hrf with hxe | hrf'
            · obtain ⟨y, hy, ho, hn⟩ := hrf
              rw [hxe] at hy hn
              simp only at hy hn
              rw [hi] at hy
              cases hy
              exact hr ⟨ho, hn⟩
            · rcases hx with rfl | hx
              · obtain ⟨y, hy, ho, hn⟩ := hrf
                simp only at hy hn
                rw [hi] at hy
                cases hy
                exact hr ⟨ho, hn⟩
              · exact e2 x hx hrf'
          · intro j y hy
            by_cases hj : j = i
            · subst hj
              rw [hi] at hy
              cases hy
              obtain ⟨z, z1, z2, z3⟩ := e3 j _ (List.getElem?_set_self hlt)
              refine ⟨z, z1, z2, fun c => ?_⟩
              rw [z3 c]
              simp only [writes, List.mem_cons, Prod.mk.injEq, true_and]
              by_cases hm : (j, c) ∈ writes ops
              · simp [hm]
              · rw [if_neg hm, PyDict.get?_set]
                by_cases hc : c = k
                · simp [hc]
                · simp [hc, hm]
            · obtain ⟨z, z1, z2, z3⟩ := e3 j y (by rw [List.getElem?_set_ne (fun e => hj e.symm)]; exact hy)
              refine ⟨z, z1, z2, fun c => ?_⟩
              rw [z3 c]
              simp [writes, hj]
        · exact .inr ⟨e1, x, by simp [writes, hx], href x hrx⟩

theorem gae_safe {n : Nat} (lam : Lam) {w : List (Nat × String)} (hw : ∀ i < n, (i, "value") ∈ w) : Safe n w (gaeOps n lam) := by
  cases lam with
  | one =>
    refine Safe.flatMap fun i hi => ?_
    have : i < n := by simpa using hi
    exact ⟨this, .inr (hw i this), this, .inl (by decide), this, trivial⟩
  | zero =>
    refine Safe.flatMap fun i hi => ?_
    have : i < n := by simpa using hi
    exact ⟨this, .inl (by decide), this, .inl (by decide), this, .inl (by decide), this, .inl (by decide), this, trivial⟩
  | other =>
    refine Safe.flatMap fun i hi => ?_
    have : i < n := by simpa using hi
    exact ⟨this, .inl (by decide), this, .inl (by decide), this, .inl (by decide), this, trivial⟩

theorem gae_writes {n : Nat} (lam : Lam) (x : Nat × String) : x ∈ writes (gaeOps n lam) ↔ x.1 < n ∧ x.2 = "gae" := by
  obtain ⟨i, k⟩ := x
  have h : (∃ a, a < n ∧ i = a ∧ k = "gae") ↔ i < n ∧ k = "gae" :=
    ⟨fun ⟨a, h1, h2, h3⟩ => ⟨h2 ▸ h1, h3⟩, fun ⟨h1, h2⟩ => ⟨i, h1, rfl, h2⟩⟩
  cases lam <;> simpa [gaeOps, writes_flatMap, writes] using h

theorem backward_safe (n m : Nat) (hm : m < n) : ∀ {w : List (Nat × String)}, (m, "value") ∈ w →
    Safe n w ((List.range m).reverse.flatMap fun j => [.read (j + 1) "value", .read j "reward", .write j "value"]) := by
  induction m with
  | zero => intro w _; exact trivial
  | succ m ih =>
    intro w hw
    rw [List.range_succ, List.reverse_append, List.flatMap_append]
    refine Safe.append ?_ ?_
    · simp only [List.reverse_cons, List.reverse_nil, List.nil_append, List.flatMap_cons, List.flatMap_nil, List.append_nil]
      exact ⟨hm, .inr hw, by omega, .inl (by decide), by omega, trivial⟩
    · exact ih (by omega) (by simp [writes])

theorem a2c_safe {n : Nat} (hn : 0 < n) (lam : Lam) {w : List (Nat × String)} : Safe n w (a2cOps lam n) := by
  unfold a2cOps
  refine Safe.append (Safe.append ?_ ?_) ?_
  · exact ⟨by omega, .inl (by decide), by omega, trivial⟩
  · exact backward_safe n (n - 1) (by omega) (by simp [writes])
  · refine gae_safe lam fun i hi => ?_
    simp only [writes_append, writes_flatMap, writes, List.mem_append, List.mem_flatMap, List.mem_reverse, List.mem_range, List.mem_cons,
      Prod.mk.injEq, and_true, List.not_mem_nil, or_false]
    by_cases h : i = n - 1
    · exact .inl (.inl h)
    · exact .inl (.inr ⟨i, by omega, rfl⟩)

theorem a2c_writes {n : Nat} (hn : 0 < n) (lam : Lam) (x : Nat × String) :
    x ∈ writes (a2cOps lam n) ↔ x.1 < n ∧ x.2 ∈ ["value", "gae"] := by
  obtain ⟨i, k⟩ := x
  simp only [a2cOps, writes_append, List.mem_append, gae_writes, writes_flatMap, writes, List.mem_flatMap, List.mem_reverse, List.mem_range,
    List.mem_cons, Prod.mk.injEq, List.not_mem_nil, or_false]
  constructor
  · rintro ((⟨rfl, rfl⟩ | ⟨j, hj, rfl, rfl⟩) | ⟨h, rfl⟩)
    · exact ⟨by omega, .inl rfl⟩
    · exact ⟨by omega, .inl rfl⟩
    · exact ⟨h, .inr rfl⟩
  · rintro ⟨h, rfl | rfl⟩
    · by_cases he : i = n - 1
      · exact .inl (.inl ⟨he, rfl⟩)
      · exact .inl (.inr ⟨i, by omega, rfl, rfl⟩)
    · exact .inr ⟨h, rfl⟩

theorem rainbow_safe {n : Nat} (hn : 0 < n) (steps : Nat) {w : List (Nat × String)} : Safe n w (rainbowOps steps n) := by
  refine Safe.append ⟨by omega, .inl (by decide), by omega, trivial⟩ (Safe.flatMap fun i hi => Safe.append ?_ ?_)
  · rw [List.map_eq_flatMap]
    refine Safe.flatMap fun j hj => ?_
    have h1 : j < min steps (n - i) := by simpa using hj
    exact ⟨by omega, .inl (by decide), trivial⟩
  · have : i < n := by simpa using hi
    exact ⟨this, trivial⟩

theorem writes_reads (l : List Nat) (f : Nat → Nat) (k : String) : writes (l.map fun j => Op.read (f j) k) = [] := by
  induction l with
  | nil => rfl
  | cons x l ih => simp [writes, ih]

theorem rainbow_writes {n : Nat} (hn : 0 < n) (steps : Nat) (x : Nat × String) :
    x ∈ writes (rainbowOps steps n) ↔ x.1 < n ∧ x.2 ∈ ["value"] := by
  obtain ⟨i, k⟩ := x
  simp only [rainbowOps, writes_append, List.mem_append, writes_flatMap, writes, List.mem_flatMap, List.mem_reverse, List.mem_range,
    List.mem_cons, Prod.mk.injEq, List.not_mem_nil, or_false, writes_reads, false_or]
  constructor
  · rintro (⟨rfl, rfl⟩ | ⟨j, hj, rfl, rfl⟩)
    · exact ⟨by omega, rfl⟩
    · exact ⟨hj, rfl⟩
  · rintro ⟨h, rfl⟩
    exact .inr ⟨i, h, rfl, rfl⟩

theorem impala_safe (n : Nat) {w : List (Nat × String)} : Safe n w (impalaOps n) := by
  unfold impalaOps
  rw [List.map_eq_flatMap]
  refine Safe.flatMap fun i hi => ?_
  exact ⟨by simpa using hi, trivial⟩

theorem impala_writes (n : Nat) (x : Nat × String) : x ∈ writes (impalaOps n) ↔ x.1 < n ∧ x.2 ∈ ["episode_length"] := by
  obtain ⟨i, k⟩ := x
  have h : (∃ a, a < n ∧ i = a ∧ k = "episode_length") ↔ i < n ∧ k = "episode_length" :=
    ⟨fun ⟨a, h1, h2, h3⟩ => ⟨h2 ▸ h1, h3⟩, fun ⟨h1, h2⟩ => ⟨i, h1, rfl, h2⟩⟩
  unfold impalaOps
  rw [List.map_eq_flatMap]
  simpa [writes_flatMap, writes] using h

theorem gail_safe (n : Nat) {w : List (Nat × String)} : Safe n w (gailOps n) := by
  refine Safe.flatMap fun i hi => ?_
  have : i < n := by simpa using hi
  exact ⟨this, .inl (by decide), this, .inl (by decide), this, trivial⟩

theorem gail_writes (n : Nat) (x : Nat × String) : x ∈ writes (gailOps n) ↔ x.1 < n ∧ x.2 = "reward" := by
  obtain ⟨i, k⟩ := x
  have h : (∃ a, a < n ∧ i = a ∧ k = "reward") ↔ i < n ∧ k = "reward" :=
    ⟨fun ⟨a, h1, h2, h3⟩ => ⟨h2 ▸ h1, h3⟩, fun ⟨h1, h2⟩ => ⟨i, h1, rfl, h2⟩⟩
  simpa [gailOps, writes_flatMap, writes] using h

theorem Alg.safe {n : Nat} (hn : 0 < n) (alg : Alg) : Safe n [] (alg.ops n) := by
  cases alg with
  | plain => trivial
  | a2c lam => exact a2c_safe hn lam
  | rainbow steps => exact rainbow_safe hn steps
  | impala => exact impala_safe n
  | gail lam => exact (gail_safe n).append (a2c_safe hn lam)

theorem Alg.writes_iff {n : Nat} (hn : 0 < n) (alg : Alg) (x : Nat × String) : x ∈ writes (alg.ops n) ↔ x.1 < n ∧ x.2 ∈ Spec.computed alg := by
  cases alg with
  | plain => simp [Alg.ops, writes, Spec.computed]
  | a2c lam => exact a2c_writes hn lam x
  | rainbow steps => exact rainbow_writes hn steps x
  | impala => exact impala_writes n x
  | gail lam =>
    simp only [Alg.ops, writes_append, List.mem_append, gail_writes, a2c_writes hn, Spec.computed]
    constructor
    · rintro (⟨h, e⟩ | ⟨h, e⟩)
      · exact ⟨h, by simp [e]⟩
      · exact ⟨h, List.mem_cons_of_mem _ e⟩
    · rintro ⟨h, e⟩
      rcases List.mem_cons.1 e with e | e
      · exact .inl ⟨h, e⟩
      · exact .inr ⟨h, e⟩

end Machin.Build.Algs
