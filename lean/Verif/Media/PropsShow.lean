import Verif.Media.ShowLemmas

/-!
# C261: showing a picture

C261: `show_image` shows every pixel with its brightness (the number itself for floats in `[0, 1]`, the number over 255 for integers), and with
`show_normalized` a second panel with the same picture stretched to the full range, in which different numbers look different.
**The code violates it** for grey pictures: the panel of the original is scaled to the range of the picture too, so that dark and bright pictures look alike.
-/

namespace Machin.Media

/-- The brightness that a number of a picture stands for. -/
def brightness (p : Pic) : List ℚ := if p.integer then p.px.map (· / 255) else p.px

/-- The picture is in the documented range and not empty. -/
def Documented (p : Pic) : Prop := p.px ≠ [] ∧ ∀ x ∈ p.px, 0 ≤ x ∧ x ≤ if p.integer then 255 else 1

/-- C261 in full. -/
def C261_full : Prop :=
  ∀ (p : Pic) (b : Bool), Documented p → ∃ rest, showImage (1 / 1000000) p b = .ok (brightness p :: rest) ∧ (rest ≠ [] ↔ b = true)

/-- **C261 is violated**: a grey picture of the numbers 1/2 and 3/4 is shown as black and white, as is the picture of 0 and 1. -/
theorem C261_violated : ¬ C261_full := by
  intro h
  obtain ⟨rest, h1, -⟩ := h ⟨[1 / 2, 3 / 4], false, false⟩ false ⟨by simp, by
    intro x hx
    simp at hx
    rcases hx with rfl | rfl <;> norm_num⟩
  have : (showImage (1 / 1000000) ⟨[1 / 2, 3 / 4], false, false⟩ false).toOption.map (fun l => l.head?) = some (some [0, 1]) := by decide +kernel
  rw [h1] at this
  revert this
  simp [Except.toOption, brightness]

theorem documented_bounds (p : Pic) (h : Documented p) : ∃ lo hi, Bounds (brightness p) lo hi ∧ ∀ x ∈ brightness p, 0 ≤ x ∧ x ≤ 1 := by
  have hne : brightness p ≠ [] := by
    unfold brightness
    split <;> simp [h.1]
  obtain ⟨lo, hi, -, -, hb⟩ := minmax_exists _ hne
  refine ⟨lo, hi, hb, fun x hx => ?_⟩
  unfold brightness at hx
  cases hi : p.integer with
  | true =>
    rw [if_pos hi, List.mem_map] at hx
    obtain ⟨y, hy, rfl⟩ := hx
    obtain ⟨h1, h2⟩ := h.2 y hy
    rw [if_pos hi] at h2
    exact ⟨by positivity, by rw [div_le_one (by norm_num)]; exact h2⟩
  | false =>
    rw [if_neg (by simp [hi])] at hx
    obtain ⟨h1, h2⟩ := h.2 x hx
    rw [if_neg (by simp [hi])] at h2
    exact ⟨h1, h2⟩

/-- **C261** (partial), pictures in colour: all pictures in the documented range are shown with their brightness; there is a second panel exactly if it is asked
for. -/
theorem C261_colour_partial (eps : ℚ) (p : Pic) (hc : p.colour = true) (h : Documented p) (b : Bool) :
    ∃ rest, showImage eps p b = .ok (brightness p :: rest) ∧ rest.length = if b then 1 else 0 := by
  obtain ⟨lo, hi, hb, hr⟩ := documented_bounds p h
  refine ⟨if b then [imshow p.colour 0 1 (p.floats.map fun x => (x - lo) / (hi - lo + eps))] else [], ?_, ?_⟩
  · rw [showImage_eq eps p lo hi hb b, hc]
    congr 2
    show (brightness p).map _ = _
    calc (brightness p).map _ = (brightness p).map id := List.map_congr_left fun x hx => by
          simp [clip01_of (hr x hx).1 (hr x hx).2]
      _ = _ := List.map_id _
  · cases b <;> rfl

/-- **C261** (partial), grey pictures, exactly: the first panel shows every number by its place between the darkest and the brightest number. -/
theorem C261_grey_partial (eps : ℚ) (p : Pic) (hc : p.colour = false) (lo hi : ℚ) (hb : Bounds (brightness p) lo hi) (b : Bool) :
    ∃ rest, showImage eps p b = .ok ((brightness p).map (fun x => if lo = hi then 0 else (x - lo) / (hi - lo)) :: rest) ∧ rest.length = if b then 1 else 0 := by
  refine ⟨if b then [imshow p.colour 0 1 (p.floats.map fun x => (x - lo) / (hi - lo + eps))] else [], ?_, ?_⟩
  · rw [showImage_eq eps p lo hi hb b, hc]
    congr 2
    show (brightness p).map _ = _
    refine List.map_congr_left fun x hx => ?_
    simp only [Bool.false_eq_true, if_false]
    split
    · rfl
    · rename_i hne
      obtain ⟨h1, h2⟩ := hb.2.2 x hx
      have hlt : lo < hi := lt_of_le_of_ne (h1.trans h2) hne
      apply clip01_of
      · exact div_nonneg (by linarith) (by linarith)
      · rw [div_le_one (by linarith)]
        linarith
  · cases b <;> rfl

/-- **C261** (partial), grey pictures: the first panel shows the brightness exactly if the picture is black or reaches from 0 to 1. -/
theorem C261_exact_partial (eps : ℚ) (p : Pic) (hc : p.colour = false) (lo hi : ℚ) (hb : Bounds (brightness p) lo hi) (b : Bool) :
    (∃ rest, showImage eps p b = .ok (brightness p :: rest)) ↔ lo = 0 ∧ (hi = 0 ∨ hi = 1) := by
  obtain ⟨rest, he, -⟩ := C261_grey_partial eps p hc lo hi hb b
  rw [he]
  constructor
  · rintro ⟨rest', h⟩
    have h' : (brightness p).map (fun x => if lo = hi then 0 else (x - lo) / (hi - lo)) = brightness p := by
      injection h with h
      exact (List.cons.inj h).1
    have hall : ∀ x ∈ brightness p, (if lo = hi then 0 else (x - lo) / (hi - lo)) = x := by
      have := List.map_inj_left.1 (h'.trans (List.map_id _).symm)
      exact this
    have h0 := hall lo hb.1
    have h1 := hall hi hb.2.1
    split at h0
    · rename_i e
      exact ⟨h0.symm, Or.inl (by rw [← e, ← h0])⟩
    · rename_i e
      rw [if_neg e, div_self (sub_ne_zero.2 (Ne.symm e))] at h1
      rw [sub_self, zero_div] at h0
      exact ⟨h0.symm, Or.inr h1.symm⟩
  · rintro ⟨rfl, h⟩
    refine ⟨rest, ?_⟩
    congr 2
    refine (List.map_congr_left fun x hx => ?_).trans (List.map_id _)
    rcases h with rfl | rfl
    · obtain ⟨h1, h2⟩ := hb.2.2 x hx
      simpa using le_antisymm h1 h2
    · simp

/-- **C261** (partial), the second panel, in colour or grey: the darkest number is shown black, all lie in `[0, 1)`, the brightest is at most `eps / range` away from
full brightness. -/
theorem C261_second_partial (eps : ℚ) (he : 0 < eps) (p : Pic) (lo hi : ℚ) (hb : Bounds (brightness p) lo hi) :
    ∃ first second, showImage eps p true = .ok [first, second] ∧ second = (brightness p).map (fun x => (x - lo) / (hi - lo + eps)) ∧
      (∀ y ∈ second, 0 ≤ y ∧ y < 1) ∧ (0 : ℚ) ∈ second ∧ (lo < hi → ∃ y ∈ second, 1 - eps / (hi - lo) < y) := by
  have hs : imshow p.colour 0 1 ((brightness p).map fun x => (x - lo) / (hi - lo + eps)) = (brightness p).map fun x => (x - lo) / (hi - lo + eps) := by
    unfold imshow
    refine (List.map_congr_left fun y hy => ?_).trans (List.map_id _)
    obtain ⟨x, hx, rfl⟩ := List.mem_map.1 hy
    obtain ⟨h1, h2⟩ := second_range he hb hx
    have := clip01_of h1 h2.le
    split
    · exact this
    · simpa using this
  refine ⟨imshow p.colour lo hi (brightness p), _, ?_, rfl, ?_, ?_, ?_⟩
  · rw [showImage_eq eps p lo hi hb true]
    rw [if_pos rfl]
    show Except.ok [_, imshow p.colour 0 1 ((brightness p).map fun x => (x - lo) / (hi - lo + eps))] = _
    rw [hs]
    rfl
  · intro y hy
    obtain ⟨x, hx, rfl⟩ := List.mem_map.1 hy
    exact second_range he hb hx
  · exact List.mem_map.2 ⟨lo, hb.1, by simp⟩
  · intro hlt
    refine ⟨_, List.mem_map.2 ⟨hi, hb.2.1, rfl⟩, ?_⟩
    have hr : 0 < hi - lo := by linarith
    have hr' : 0 < hi - lo + eps := by linarith
    rw [lt_div_iff₀ hr', sub_mul, one_mul, div_mul_eq_mul_div, sub_lt_comm, lt_div_iff₀ hr]
    nlinarith [mul_pos he he]

/-- **C261** (partial): the second panel keeps the order of numbers, and different numbers stay different. -/
theorem C261_order_partial (eps : ℚ) (he : 0 < eps) (p : Pic) (lo hi : ℚ) (hb : Bounds (brightness p) lo hi) (i j : Nat) (x y : ℚ)
    (hi' : (brightness p)[i]? = some x) (hj : (brightness p)[j]? = some y) (hxy : x < y) :
    ∃ first second u v, showImage eps p true = .ok [first, second] ∧ second[i]? = some u ∧ second[j]? = some v ∧ u < v := by
  obtain ⟨first, second, h1, rfl, -⟩ := C261_second_partial eps he p lo hi hb
  refine ⟨_, _, _, _, h1, by rw [List.getElem?_map, hi']; rfl, by rw [List.getElem?_map, hj]; rfl, ?_⟩
  have : lo ≤ hi := (hb.2.2 lo hb.1).2
  exact div_lt_div_of_pos_right (by linarith) (by linarith)

/-- An empty picture is refused. -/
theorem C261_empty_partial (eps : ℚ) (c i b : Bool) : showImage eps ⟨[], c, i⟩ b = .error .value := by
  cases i <;> rfl

/-- A picture in colour, and a grey one of integers. -/
example : (showImage (1 / 1000000) ⟨[1 / 2, 3 / 4], true, false⟩ false).toOption = some [[1 / 2, 3 / 4]] ∧
    (showImage 1 ⟨[51, 102, 255], false, true⟩ true).toOption = some [[0, 1 / 4, 1], [0, 1 / 9, 4 / 9]] := by
  decide +kernel

example : Bounds (brightness ⟨[51, 102, 255], false, true⟩) (1 / 5) 1 := by
  refine ⟨?_, ?_, ?_⟩ <;> simp [brightness] <;> norm_num

end Machin.Media
