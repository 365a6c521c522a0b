import Verif.Config.SpecFile
import Verif.Config.Lemmas

/-! # Lemmas on configurations from the command line and from files -/

namespace Machin.Config

variable {V : Type}

theorem splitEq_clean : ∀ t : List Char, '=' ∉ t → splitEq t = [t]
  | [], _ => rfl
  | c :: t, h => by
    simp only [List.mem_cons, not_or] at h
    rw [splitEq, if_neg (fun e => h.1 e.symm), splitEq_clean t h.2]

theorem splitEq_cons : ∀ (a t : List Char), '=' ∉ a → splitEq (a ++ '=' :: t) = a :: splitEq t
  | [], t, _ => by simp [splitEq]
  | c :: a, t, h => by
    simp only [List.mem_cons, not_or] at h
    rw [List.cons_append, splitEq, if_neg (fun e => h.1 e.symm), splitEq_cons a t h.2]

theorem splitEq_ne_nil : ∀ t, splitEq t ≠ []
  | [] => by simp [splitEq]
  | c :: t => by
    rw [splitEq]
    split
    · simp
    · split <;> simp

theorem splitEq_two : ∀ t : List Char, '=' ∈ t → ∃ a b l, splitEq t = a :: b :: l
  | [], h => by cases h
  | c :: t, h => by
    rw [splitEq]
    by_cases hc : c = '='
    · rw [if_pos hc]
      cases hs : splitEq t with
      | nil => exact absurd hs (splitEq_ne_nil t)
      | cons a l => exact ⟨_, _, _, rfl⟩
    · rw [if_neg hc]
      have : '=' ∈ t := by
        rcases List.mem_cons.1 h with e | e
        · exact absurd e.symm hc
        · exact e
      obtain ⟨a, b, l, e⟩ := splitEq_two t this
      rw [e]
      exact ⟨_, _, _, rfl⟩

theorem parse_argument (eval : List Char → Except Err V) (n t : List Char) (hn : '=' ∉ n) (ht : '=' ∉ t) (v : V) (he : eval t = .ok v) :
    parse eval (argument n t) = .ok (n, v) := by
  simp only [parse, argument, splitEq_cons n t hn, splitEq_clean t ht, he]

theorem parse_bad (eval : List Char → Except Err V) (n t : List Char) (hn : '=' ∉ n) (ht : '=' ∈ t) : parse eval (argument n t) = .error .value := by
  obtain ⟨a, b, l, e⟩ := splitEq_two t ht
  simp only [parse, argument, splitEq_cons n t hn, e]

/-- The value of a text, or nothing. -/
def valOf (eval : List Char → Except Err V) (t : List Char) : Option V := (eval t).toOption

theorem parseAll_get (eval : List Char → Except Err V) : ∀ (l : List (Name × List Char)) (d : PyDict Name V), d.WF →
    (∀ p ∈ l, '=' ∉ p.1 ∧ '=' ∉ p.2 ∧ ∃ v, eval p.2 = .ok v) →
    ∃ d', parseAll eval (l.map fun p => argument p.1 p.2) d = .ok d' ∧ d'.WF ∧
      (∀ k, d'.get? k = ((lastText k l).bind (valOf eval)).or (d.get? k)) ∧ ∀ k ∈ d'.keys, k ∈ d.keys ∨ k ∈ l.map (·.1)
  | [], d, hd, _ => ⟨d, rfl, hd, fun k => by simp [lastText], fun k h => Or.inl h⟩
  | (n, t) :: l, d, hd, h => by
    obtain ⟨h1, h2, v, hv⟩ := h (n, t) (by simp)
    obtain ⟨d', e1, e2, e3, e4⟩ := parseAll_get eval l (d.set n v) (hd.set n v) (fun p hp => h p (List.mem_cons_of_mem _ hp))
    refine ⟨d', ?_, e2, ?_, ?_⟩
    · simp only [List.map_cons, parseAll, parse_argument eval n t h1 h2 v hv, e1]
    · intro k
      rw [e3 k, PyDict.get?_set]
      cases hl : lastText k l with
      | some t' =>
        simp only [lastText, hl, Option.some_or, Option.bind_some]
        have : ∃ v', valOf eval t' = some v' := by
          have hm : (k, t') ∈ l := by
            clear e1 e2 e3 e4 h
            induction l with
            | nil => simp [lastText] at hl
            | cons q l ih =>
              rw [lastText] at hl
              cases hq : lastText k l with
              | some t2 => rw [hq, Option.some_or, Option.some.injEq] at hl; subst hl; exact List.mem_cons_of_mem _ (ih hq)
              | none =>
                rw [hq, Option.none_or] at hl
                split at hl
                · rename_i e; cases hl; subst e; simp
                · cases hl
          obtain ⟨-, -, v', hv'⟩ := h (k, t') (List.mem_cons_of_mem _ hm)
          exact ⟨v', by simp only [valOf, hv', Except.toOption]⟩
        obtain ⟨v', hv'⟩ := this
        simp [hv']
      | none =>
        simp only [lastText, hl, Option.none_or, Option.bind_none]
        by_cases hk : n = k
        · subst hk; simp [valOf, hv, Except.toOption]
        · have hk' : ¬ k = n := fun e => hk e.symm
          simp [hk, hk']
    · intro k hk
      rcases e4 k hk with h' | h'
      · rw [← PyDict.get?_isSome_iff, PyDict.get?_set] at h'
        by_cases hk' : k = n
        · exact Or.inr (by simp [hk'])
        · rw [if_neg hk'] at h'
          exact Or.inl ((PyDict.get?_isSome_iff _ _).1 h')
      · exact Or.inr (by simp only [List.map_cons, List.mem_cons]; exact Or.inr h')

/-! ## Files -/

theorem insertKey_perm {A : Type} (p : Key × A) : ∀ l : List (Key × A), (insertKey p l).Perm (p :: l)
  | [] => List.Perm.refl _
  | q :: l => by
    rw [insertKey]
    split
    · exact List.Perm.refl _
    · exact ((insertKey_perm p l).cons q).trans (List.Perm.swap p q l)

theorem sortKeys_perm {A : Type} : ∀ l : List (Key × A), (sortKeys l).Perm l
  | [] => List.Perm.refl _
  | p :: l => (insertKey_perm p (sortKeys l)).trans ((sortKeys_perm l).cons p)

theorem num_eq (k : Key) (h : k.sort = 1) : number k = some k.num := by
  cases k with
  | bool b => cases b <;> rfl
  | int i => rfl
  | _ => simp [Key.sort] at h

theorem le_before (a b : Key) (h : a.sort = b.sort) (hle : a.le b = true) : Before a b := by
  cases a <;> cases b <;> simp only [Key.sort] at h <;> try omega
  all_goals simp only [Key.le, decide_eq_true_eq] at hle
  case str.str => exact hle
  all_goals
    simp only [Before]
    intro x y hx hy
    first
      | (rw [num_eq _ rfl] at hx hy
         cases hx
         cases hy
         exact hle)
      | simp [number] at hx

theorem key_total (a b : Key) (h : a.sort = b.sort) (hle : a.le b = false) : b.le a = true := by
  cases a <;> cases b <;> simp only [Key.sort] at h <;> try omega
  all_goals simp only [Key.le, decide_eq_false_iff_not, decide_eq_true_eq] at hle ⊢
  case str.str x y => exact (List.le_total x y).resolve_left hle
  all_goals omega

theorem key_trans (a b c : Key) (h1 : a.sort = b.sort) (h2 : b.sort = c.sort) (hab : a.le b = true) (hbc : b.le c = true) : a.le c = true := by
  cases a <;> cases b <;> simp only [Key.sort] at h1 <;> try omega
  all_goals cases c <;> simp only [Key.sort] at h2 <;> try omega
  all_goals simp only [Key.le, decide_eq_true_eq] at hab hbc ⊢
  case str.str.str => exact List.le_trans hab hbc
  all_goals omega

theorem insertKey_sorted {A : Type} (n : Nat) (p : Key × A) (hp : p.1.sort = n) : ∀ l : List (Key × A), (∀ q ∈ l, q.1.sort = n) →
    l.Pairwise (fun p q => p.1.le q.1 = true) → (insertKey p l).Pairwise (fun p q => p.1.le q.1 = true)
  | [], _, _ => by simp [insertKey]
  | q :: l, hl, hs => by
    rw [insertKey]
    have hq := hl q (by simp)
    rw [List.pairwise_cons] at hs
    by_cases h : p.1.le q.1 = true
    · rw [if_pos h, List.pairwise_cons]
      refine ⟨?_, List.pairwise_cons.2 hs⟩
      intro x hx
      rcases List.mem_cons.1 hx with rfl | hx
      · exact h
      · exact key_trans _ _ _ (by rw [hp, hq]) (by rw [hq, hl x (by simp [hx])]) h (hs.1 x hx)
    · rw [if_neg h, List.pairwise_cons]
      refine ⟨?_, insertKey_sorted n p hp l (fun x hx => hl x (by simp [hx])) hs.2⟩
      intro x hx
      rcases List.mem_cons.1 ((insertKey_perm p l).mem_iff.1 hx) with rfl | hx
      · exact key_total _ _ (by rw [hp, hq]) (by simpa using h)
      · exact hs.1 x hx

theorem sortKeys_sorted {A : Type} (n : Nat) : ∀ l : List (Key × A), (∀ q ∈ l, q.1.sort = n) → (sortKeys l).Pairwise (fun p q => p.1.le q.1 = true)
  | [], _ => by simp [sortKeys]
  | p :: l, h => insertKey_sorted n p (h p (by simp)) _ (fun q hq => h q (by simp [(sortKeys_perm l).mem_iff.1 hq]))
      (sortKeys_sorted n l (fun q hq => h q (by simp [hq])))

theorem sortable_sorted {A : Type} (l : List (Key × A)) (h : sortable l = true) : (sortKeys l).Pairwise (fun p q => Before p.1 q.1) := by
  cases l with
  | nil => simp [sortKeys]
  | cons p l =>
    have hs : ∀ q ∈ p :: l, q.1.sort = p.1.sort := by
      intro q hq
      have h1 := List.all_eq_true.1 h p (by simp)
      have h2 := List.all_eq_true.1 h1 q hq
      exact (by simpa using h2 : p.1.sort = q.1.sort).symm
    have hm : ∀ q ∈ sortKeys (p :: l), q.1.sort = p.1.sort := fun q hq => hs q ((sortKeys_perm _).mem_iff.1 hq)
    refine (sortKeys_sorted p.1.sort (p :: l) hs).imp_of_mem ?_
    intro a b ha hb hab
    exact le_before _ _ (by rw [hm a ha, hm b hb]) hab

theorem dumpItems_keys : ∀ (d : List (Key × Py)) (js : List (Key × Json)), dumpItems d = .ok js →
    js.map (·.1) = d.map (·.1) ∧ ∀ q ∈ js, ∃ v, (q.1, v) ∈ d ∧ dump v = .ok q.2
  | [], js, h => by
    simp only [dumpItems, Except.ok.injEq] at h
    subst h
    simp
  | (k, v) :: d, js, h => by
    simp only [dumpItems] at h
    cases hv : dump v with
    | error e => simp [hv] at h
    | ok j =>
      cases hd : dumpItems d with
      | error e => simp [hv, hd] at h
      | ok js' =>
        simp only [hv, hd, Except.ok.injEq] at h
        subst h
        obtain ⟨h1, h2⟩ := dumpItems_keys d js' hd
        refine ⟨by simp [h1], ?_⟩
        intro q hq
        rcases List.mem_cons.1 hq with rfl | hq
        · exact ⟨v, by simp, hv⟩
        · obtain ⟨w, hw1, hw2⟩ := h2 q hq
          exact ⟨w, by simp [hw1], hw2⟩

theorem foldl_set_eq (l : List (Key × Py)) : ∀ d : PyDict Key Py, (PyDict.keys (d ++ l)).Nodup →
    l.foldl (fun (d : PyDict Key Py) p => d.set p.1 p.2) d = d ++ l := by
  induction l with
  | nil => intro d _; simp
  | cons p l ih =>
    intro d h
    rw [List.foldl_cons]
    have hp : p.1 ∉ PyDict.keys d := by
      simp only [PyDict.keys, List.map_append, List.map_cons] at h
      rw [List.nodup_append] at h
      intro hm
      exact h.2.2 p.1 hm p.1 (by simp) rfl
    have e : d ++ p :: l = (d ++ [p]) ++ l := by simp
    rw [PyDict.set_of_not_mem hp, ih, e]
    rw [← e]
    exact h

theorem get?_perm {d e : PyDict Key Py} (hd : d.WF) (h : List.Perm d e) (k : Key) : d.get? k = e.get? k := by
  have he : e.WF := (h.map (fun p : Key × Py => p.1)).nodup_iff.1 hd
  cases hg : d.get? k with
  | some v => exact (PyDict.get?_of_mem he (h.mem_iff.1 (PyDict.mem_of_get? hg))).symm
  | none =>
    symm
    rw [PyDict.get?_eq_none_iff] at hg ⊢
    intro hm
    exact hg ((h.map (fun p : Key × Py => p.1)).mem_iff.2 hm)

theorem loadItems_map : ∀ js : List (Key × Json), (∀ p ∈ js, ∃ s, p.1 = .str s) →
    loadItems (js.map fun p => (p.1.text, p.2)) = js.map fun p => (p.1, load p.2)
  | [], _ => rfl
  | p :: js, h => by
    obtain ⟨k, j⟩ := p
    obtain ⟨s, hs⟩ := h (k, j) (by simp)
    simp only at hs
    subst hs
    rw [List.map_cons, loadItems, loadItems_map js (fun q hq => h q (List.mem_cons_of_mem _ hq))]
    rfl

/-- Lists whose elements are the same. -/
def SameList : List Py → List Py → Prop
  | [], [] => True
  | v :: l, w :: m => Same v w ∧ SameList l m
  | _, _ => False

/-- Items with the same keys, whose values are the same. -/
def SameItems : List (Key × Json) → List (Key × Py) → Prop
  | [], [] => True
  | p :: l, q :: m => (p.1 = q.1 ∧ Same (load p.2) q.2) ∧ SameItems l m
  | _, _ => False

theorem SameList.length : ∀ {l m : List Py}, SameList l m → l.length = m.length
  | [], [], _ => rfl
  | _ :: _, _ :: _, h => by simp [SameList.length h.2]

theorem SameList.get : ∀ {l m : List Py}, SameList l m → ∀ (i : Nat) (p : List Way), (l[i]?).bind (look · p) = (m[i]?).bind (look · p)
  | [], [], _, _, _ => rfl
  | v :: l, w :: m, h, 0, p => by simpa using h.1 p
  | v :: l, w :: m, h, i + 1, p => by simpa using SameList.get h.2 i p

theorem Same_list {l m : List Py} (h : SameList l m) : Same (.list l) (.list m) := by
  intro p
  cases p with
  | nil => simp [look, head, h.length]
  | cons w ws =>
    cases w with
    | idx i =>
      have := h.get i ws
      simp only [look, child]
      cases h1 : l[i]? <;> cases h2 : m[i]? <;> simp_all
    | key k => rfl

theorem SameItems.keys : ∀ {js : List (Key × Json)} {d : List (Key × Py)}, SameItems js d → js.map (·.1) = d.map (·.1)
  | [], [], _ => rfl
  | _ :: _, _ :: _, h => by simp [h.1.1, SameItems.keys h.2]

theorem SameItems.get : ∀ {js : List (Key × Json)} {d : List (Key × Py)}, SameItems js d → ∀ (k : Key) (p : List Way),
    (PyDict.get? (js.map fun q => (q.1, load q.2)) k).bind (look · p) = (PyDict.get? d k).bind (look · p)
  | [], [], _, _, _ => rfl
  | a :: js, b :: d, h, k, p => by
    rw [List.map_cons, PyDict.get?_cons, PyDict.get?_cons]
    rw [h.1.1]
    by_cases hk : b.1 = k
    · simpa [hk] using h.1.2 p
    · simpa [hk] using SameItems.get h.2 k p

theorem plainItems_str : ∀ {d : List (Key × Py)}, plainItems d = true → ∀ p ∈ d, ∃ s, p.1 = .str s
  | [], _, _, hp => by cases hp
  | (.str s, v) :: d, h, p, hp => by
    simp only [plainItems, Bool.and_eq_true] at h
    rcases List.mem_cons.1 hp with rfl | hp
    · exact ⟨s, rfl⟩
    · exact plainItems_str h.2 p hp

theorem sortable_str {js : List (Key × Json)} (h : ∀ p ∈ js, ∃ s, p.1 = .str s) : sortable js = true := by
  simp only [sortable, List.all_eq_true]
  intro p hp q hq
  obtain ⟨s, hs⟩ := h p hp
  obtain ⟨s', hs'⟩ := h q hq
  rw [hs, hs']
  rfl

mutual
theorem dump_load : ∀ v : Py, plain v = true → ∃ j, dump v = .ok j ∧ Same (load j) v
  | .none, _ => ⟨_, rfl, fun _ => rfl⟩
  | .bool _, _ => ⟨_, rfl, fun _ => rfl⟩
  | .int _, _ => ⟨_, rfl, fun _ => rfl⟩
  | .str _, _ => ⟨_, rfl, fun _ => rfl⟩
  | .list l, h => by
    rw [plain] at h
    obtain ⟨js, e, s⟩ := dumpList_load l h
    refine ⟨.arr js, by rw [dump, e], ?_⟩
    rw [load]
    exact Same_list s
  | .tuple _, h => by simp [plain] at h
  | .other, h => by simp [plain] at h
  | .dict d, h => by
    rw [plain, Bool.and_eq_true, decide_eq_true_eq] at h
    obtain ⟨js, e, s⟩ := dumpItems_load d h.2
    have hk := s.keys
    have hstr : ∀ p ∈ js, ∃ t, p.1 = .str t := by
      intro p hp
      have : p.1 ∈ d.map (·.1) := by rw [← hk]; exact List.mem_map.2 ⟨p, hp, rfl⟩
      obtain ⟨q, hq, e⟩ := List.mem_map.1 this
      obtain ⟨t, ht⟩ := plainItems_str h.2 q hq
      exact ⟨t, by rw [← e, ht]⟩
    have hp := sortKeys_perm js
    refine ⟨.obj ((sortKeys js).map fun p => (p.1.text, p.2)), by rw [dump, e]; simp only [sortable_str hstr, if_true], ?_⟩
    rw [load, loadItems_map (sortKeys js) (fun p hp' => hstr p (hp.mem_iff.1 hp'))]
    have hwf : PyDict.WF (js.map fun p => (p.1, load p.2)) := by
      have : PyDict.keys (js.map fun p => (p.1, load p.2)) = PyDict.keys d := by
        simp only [PyDict.keys, List.map_map]
        exact hk
      rw [PyDict.WF, this]
      exact h.1
    have hpm : List.Perm ((sortKeys js).map fun p => (p.1, load p.2)) (js.map fun p => (p.1, load p.2)) := hp.map _
    have hwf' : PyDict.WF ((sortKeys js).map fun p => (p.1, load p.2)) := (hpm.map (fun p : Key × Py => p.1)).nodup_iff.2 hwf
    rw [foldl_set_eq _ [] hwf', List.nil_append]
    intro p
    cases p with
    | nil =>
      have hl : js.length = d.length := by have := congrArg List.length hk; simpa using this
      simp [look, head, hp.length_eq, hl]
    | cons w ws =>
      cases w with
      | idx i => rfl
      | key k =>
        have := s.get k ws
        simp only [look, child]
        rw [get?_perm hwf' hpm]
        cases h1 : PyDict.get? (js.map fun p => (p.1, load p.2)) k <;> cases h2 : PyDict.get? d k <;> simp_all
theorem dumpList_load : ∀ l : List Py, plainList l = true → ∃ js, dumpList l = .ok js ∧ SameList (loadList js) l
  | [], _ => ⟨[], rfl, trivial⟩
  | v :: l, h => by
    rw [plainList, Bool.and_eq_true] at h
    obtain ⟨j, e, s⟩ := dump_load v h.1
    obtain ⟨js, e', s'⟩ := dumpList_load l h.2
    exact ⟨j :: js, by simp only [dumpList, e, e'], by rw [loadList]; exact ⟨s, s'⟩⟩
theorem dumpItems_load : ∀ d : List (Key × Py), plainItems d = true → ∃ js, dumpItems d = .ok js ∧ SameItems js d
  | [], _ => ⟨[], rfl, trivial⟩
  | (.str k, v) :: d, h => by
    rw [plainItems, Bool.and_eq_true] at h
    obtain ⟨j, e, s⟩ := dump_load v h.1
    obtain ⟨js, e', s'⟩ := dumpItems_load d h.2
    exact ⟨(.str k, j) :: js, by simp only [dumpItems, e, e'], ⟨rfl, s⟩, s'⟩
  | (.int _, _) :: _, h => by simp [plainItems] at h
  | (.bool _, _) :: _, h => by simp [plainItems] at h
  | (.none, _) :: _, h => by simp [plainItems] at h
end

theorem get?_map_str (k : Name) : ∀ data : PyDict Name Py, PyDict.get? (data.map fun p => (Key.str p.1, p.2)) (.str k) = data.get? k
  | [] => rfl
  | (n, v) :: data => by
    rw [List.map_cons, PyDict.get?_cons, PyDict.get?_cons, get?_map_str k data]
    simp

theorem keys_str (data : PyDict Name Py) : PyDict.keys (data.map fun p => (Key.str p.1, p.2)) = (PyDict.keys data).map Key.str := by
  simp [PyDict.keys, Function.comp_def]

theorem nodup_str : ∀ l : List Name, (l.map Key.str).Nodup ↔ l.Nodup
  | [] => by simp
  | k :: l => by
    rw [List.map_cons, List.nodup_cons, List.nodup_cons, nodup_str l]
    simp

theorem keys_str_nodup (data : PyDict Name Py) (h : data.WF) : (PyDict.keys (data.map fun p => (Key.str p.1, p.2))).Nodup := by
  rw [keys_str, nodup_str]
  exact h

theorem plainItems_map : ∀ data : PyDict Name Py, (∀ p ∈ data, plain p.2 = true) → plainItems (data.map fun p => (Key.str p.1, p.2)) = true
  | [], _ => rfl
  | (k, v) :: data, h => by
    rw [List.map_cons, plainItems, plainItems_map data (fun p hp => h p (List.mem_cons_of_mem _ hp)), h (k, v) (by simp)]
    rfl

theorem dump_dict {d : List (Key × Py)} {j : Json} (h : dump (.dict d) = .ok j) : ∃ l, j = .obj l := by
  rw [dump] at h
  split at h
  · split at h
    · cases h; exact ⟨_, rfl⟩
    · cases h
  · cases h

/-- Dictionaries with names as keys. -/
theorem names_map : ∀ d : PyDict Name Py, names (d.map fun p => (Key.str p.1, p.2)) = .ok d
  | [] => rfl
  | (k, v) :: d => by rw [List.map_cons, names, names_map d]

theorem loadItems_str : ∀ l : List (Name × Json), loadItems l = (l.map fun p => (p.1, load p.2)).map fun p => (Key.str p.1, p.2)
  | [] => rfl
  | (k, j) :: l => by rw [loadItems, loadItems_str l]; rfl

theorem set_map_str (d : PyDict Name Py) (k : Name) (v : Py) :
    PyDict.set (d.map fun p => (Key.str p.1, p.2)) (.str k) v = (d.set k v).map fun p => (Key.str p.1, p.2) := by
  have hm : PyDict.mem (d.map fun p => (Key.str p.1, p.2)) (.str k) = d.mem k := by
    simp [PyDict.mem, List.any_map, Function.comp_def]
  unfold PyDict.set
  rw [hm]
  split
  · simp only [List.map_map]
    apply List.map_congr_left
    intro p _
    by_cases h : p.1 = k <;> simp [h]
  · simp

theorem foldl_map_str : ∀ (l : List (Name × Py)) (d : PyDict Name Py),
    (l.map fun p => (Key.str p.1, p.2)).foldl (fun (d : PyDict Key Py) p => d.set p.1 p.2) (d.map fun p => (Key.str p.1, p.2)) =
      (l.foldl (fun (d : PyDict Name Py) p => d.set p.1 p.2) d).map fun p => (Key.str p.1, p.2)
  | [], _ => rfl
  | p :: l, d => by
    rw [List.map_cons, List.foldl_cons, List.foldl_cons, set_map_str, foldl_map_str l]

theorem foldl_set_wf : ∀ (l : List (Name × Py)) (d : PyDict Name Py), d.WF → PyDict.WF (l.foldl (fun (d : PyDict Name Py) p => d.set p.1 p.2) d)
  | [], _, h => h
  | p :: l, d, h => foldl_set_wf l _ (h.set p.1 p.2)

theorem load_obj (l : List (Name × Json)) : ∃ (d : List (Key × Py)) (m : PyDict Name Py),
    load (.obj l) = .dict d ∧ names d = .ok m ∧ m.WF ∧ ∀ k, m.get? k = PyDict.get? d (.str k) := by
  have := foldl_map_str (l.map fun p => (p.1, load p.2)) []
  refine ⟨_, _, by rw [load, loadItems_str]; exact congrArg Py.dict this, names_map _, foldl_set_wf _ _ (by simp [PyDict.WF, PyDict.keys]), fun k => ?_⟩
  rw [get?_map_str]

mutual
theorem dump_error : ∀ (v : Py) (e : Err), dump v = .error e → e = .type
  | .none, _, h => by simp [dump] at h
  | .bool _, _, h => by simp [dump] at h
  | .int _, _, h => by simp [dump] at h
  | .str _, _, h => by simp [dump] at h
  | .other, _, h => by simp [dump] at h; exact h.symm
  | .list l, e, h => by
    rw [dump] at h
    split at h
    · cases h
    · cases h; exact dumpList_error l e (by assumption)
  | .tuple l, e, h => by
    rw [dump] at h
    split at h
    · cases h
    · cases h; exact dumpList_error l e (by assumption)
  | .dict d, e, h => by
    rw [dump] at h
    split at h
    · split at h
      · cases h
      · cases h; rfl
    · cases h; exact dumpItems_error d e (by assumption)
theorem dumpList_error : ∀ (l : List Py) (e : Err), dumpList l = .error e → e = .type
  | [], _, h => by simp [dumpList] at h
  | v :: l, e, h => by
    rw [dumpList] at h
    split at h
    · split at h
      · cases h
      · cases h; exact dumpList_error l e (by assumption)
    · cases h; exact dump_error v e (by assumption)
theorem dumpItems_error : ∀ (l : List (Key × Py)) (e : Err), dumpItems l = .error e → e = .type
  | [], _, h => by simp [dumpItems] at h
  | (k, v) :: l, e, h => by
    rw [dumpItems] at h
    split at h
    · split at h
      · cases h
      · cases h; exact dumpItems_error l e (by assumption)
    · cases h; exact dump_error v e (by assumption)
end

theorem dumpItems_other : ∀ (l : List (Key × Py)) {k : Key}, (k, Py.other) ∈ l → dumpItems l = .error .type
  | [], _, h => by cases h
  | (k', v) :: l, k, h => by
    rw [dumpItems]
    rcases List.mem_cons.1 h with e | e
    · cases e; rfl
    · rw [dumpItems_other l e]
      split
      · rfl
      · rename_i e' he
        rw [dump_error _ _ he]

theorem comparable_iff (a b : Key) : Comparable a b ↔ a.sort = b.sort := by
  cases a <;> cases b <;> simp [Comparable, Key.sort]

theorem sortable_iff {A : Type} (l : List (Key × A)) : sortable l = true ↔ ∀ p ∈ l, ∀ q ∈ l, Comparable p.1 q.1 := by
  simp only [sortable, List.all_eq_true, beq_iff_eq, comparable_iff]

theorem comparable_keys {A B : Type} {l : List (Key × A)} {m : List (Key × B)} (h : l.map (·.1) = m.map (·.1)) :
    (∀ p ∈ l, ∀ q ∈ l, Comparable p.1 q.1) ↔ ∀ p ∈ m, ∀ q ∈ m, Comparable p.1 q.1 := by
  have key : ∀ {C : Type} (n : List (Key × C)), (∀ p ∈ n, ∀ q ∈ n, Comparable p.1 q.1) ↔ ∀ a ∈ n.map (·.1), ∀ b ∈ n.map (·.1), Comparable a b := by
    intro C n
    simp only [List.forall_mem_map]
  rw [key, key, h]

mutual
theorem dump_cases : ∀ v, (Writable v ∧ ∃ j, dump v = .ok j) ∨ (¬ Writable v ∧ dump v = .error .type)
  | .none => Or.inl ⟨trivial, _, rfl⟩
  | .bool _ => Or.inl ⟨trivial, _, rfl⟩
  | .int _ => Or.inl ⟨trivial, _, rfl⟩
  | .str _ => Or.inl ⟨trivial, _, rfl⟩
  | .other => Or.inr ⟨id, rfl⟩
  | .list l => by
    simp only [Writable, dump]
    rcases dumpList_cases l with ⟨h, j, e⟩ | ⟨h, e⟩
    · exact Or.inl ⟨h, _, by rw [e]⟩
    · exact Or.inr ⟨h, by rw [e]⟩
  | .tuple l => by
    simp only [Writable, dump]
    rcases dumpList_cases l with ⟨h, j, e⟩ | ⟨h, e⟩
    · exact Or.inl ⟨h, _, by rw [e]⟩
    · exact Or.inr ⟨h, by rw [e]⟩
  | .dict d => by
    simp only [Writable, dump]
    rcases dumpItems_cases d with ⟨h, js, e, hk⟩ | ⟨h, e⟩
    · rw [e, ← comparable_keys hk, ← sortable_iff]
      cases hs : sortable js with
      | true => exact Or.inl ⟨⟨rfl, h⟩, _, by simp only [hs, if_true]; rfl⟩
      | false => exact Or.inr ⟨fun hc => by simp at hc, by simp only [hs, Bool.false_eq_true, if_false]⟩
    · exact Or.inr ⟨fun hc => h hc.2, by rw [e]⟩
theorem dumpList_cases : ∀ l, (WritableList l ∧ ∃ j, dumpList l = .ok j) ∨ (¬ WritableList l ∧ dumpList l = .error .type)
  | [] => Or.inl ⟨trivial, _, rfl⟩
  | v :: l => by
    simp only [WritableList, dumpList]
    rcases dump_cases v with ⟨h, j, e⟩ | ⟨h, e⟩
    · rcases dumpList_cases l with ⟨h', j', e'⟩ | ⟨h', e'⟩
      · exact Or.inl ⟨⟨h, h'⟩, _, by rw [e, e']⟩
      · exact Or.inr ⟨fun hc => h' hc.2, by rw [e, e']⟩
    · exact Or.inr ⟨fun hc => h hc.1, by rw [e]⟩
theorem dumpItems_cases : ∀ d, (WritableItems d ∧ ∃ js, dumpItems d = .ok js ∧ js.map (·.1) = d.map (·.1)) ∨ (¬ WritableItems d ∧ dumpItems d = .error .type)
  | [] => Or.inl ⟨trivial, _, rfl, rfl⟩
  | (k, v) :: l => by
    simp only [WritableItems, dumpItems]
    rcases dump_cases v with ⟨h, j, e⟩ | ⟨h, e⟩
    · rcases dumpItems_cases l with ⟨h', j', e', hk⟩ | ⟨h', e'⟩
      · exact Or.inl ⟨⟨h, h'⟩, _, by rw [e, e'], by simp [hk]⟩
      · exact Or.inr ⟨fun hc => h' hc.2, by rw [e, e']⟩
    · exact Or.inr ⟨fun hc => h hc.1, by rw [e]⟩
end

end Machin.Config
