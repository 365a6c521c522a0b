import Verif.Base.Err
import Mathlib.Algebra.Order.Field.Basic
import Mathlib.Algebra.Order.Field.Rat

/-! # Showing a picture (`show_image`, `machin/utils/media.py` lines 10-51)

Numbers are rationals. What is modelled is the brightness that the panels of the window give to every pixel; the window itself, titles and the pause are left
out. -/

namespace Machin.Media

/-- A picture: the numbers in it, whether it has channels of colour (`(H, W, C)`, otherwise `(H, W)`), and whether the `dtype` is an integer. -/
structure Pic where
  px : List ℚ
  colour : Bool
  integer : Bool

/-- `np.min` (ValueError for an empty array). -/
def npMin : List ℚ → Except Err ℚ
  | [] => .error .value
  | x :: l => .ok (l.foldl min x)

/-- `np.max`. -/
def npMax : List ℚ → Except Err ℚ
  | [] => .error .value
  | x :: l => .ok (l.foldl max x)

/-- A number cut to `[0, 1]`. -/
def clip01 (x : ℚ) : ℚ := max 0 (min 1 x)

/-- `ax.imshow(image, vmin=…, vmax=…)` of matplotlib: pictures in colour are shown as they are (`vmin` and `vmax` are not used), numbers out of range are cut;
grey pictures are scaled so that `vmin` is darkest and `vmax` is brightest, and `0` everywhere if the two are equal (`Normalize`). -/
def imshow (colour : Bool) (vmin vmax : ℚ) (px : List ℚ) : List ℚ :=
  px.map fun x => if colour then clip01 x else if vmin = vmax then 0 else clip01 ((x - vmin) / (vmax - vmin))

/-- `if np.issubdtype(image.dtype, np.integer): image = image.astype(np.floating) / 255` (media.py:31-32). -/
def Pic.floats (p : Pic) : List ℚ := if p.integer then p.px.map (· / 255) else p.px

/-- `show_image` (media.py:10-51): the panels. `eps` is `1e-6`. -/
def showImage (eps : ℚ) (p : Pic) (normalized : Bool) : Except Err (List (List ℚ)) := do
  let image := p.floats
  let lo ← npMin image
  let hi ← npMax image
  let first := imshow p.colour lo hi image
  if normalized then
    let range := hi - lo + eps
    return [first, imshow p.colour 0 1 (image.map fun x => (x - lo) / range)]
  else
    return [first]

end Machin.Media
