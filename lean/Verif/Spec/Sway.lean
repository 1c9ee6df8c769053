import Verif.Spec.Geom
import Mathlib.Analysis.SpecialFunctions.Trigonometric.Basic
/-!
# Specification for C95: how far a point of a chain may move when its joints move
-/

namespace K

noncomputable section

/-- the chord of the angle `d` on the circle of radius one: how far a point at distance one from an axis
moves when it is turned about it by `d` -/
def chord (d : ℝ) : ℝ := 2 * |Real.sin (d / 2)|

/-- the lengths of the origins of the joints `js`, and the strokes of the linear ones -/
def extent : List (Joint ℝ) → ℝ
  | [] => 0
  | j :: js => j.origin.trans.norm + (match j.jointType with | .linear _ => |j.position| | _ => 0) + extent js

/-- A bound for the way of a point at distance `r` from the end of the joints `js`, each given with its new
position: the stroke of each linear joint, and for each rotational joint the chord of its turn times the
length of what comes after it. -/
def sway (r : ℝ) : List (Joint ℝ × ℝ) → ℝ
  | [] => 0
  | (j, q) :: js => (match j.jointType with
      | .fixed => 0
      | .linear _ => |q - j.position|
      | .rotational _ => chord (q - j.position) * (extent (js.map (·.1)) + r)) + sway r js

/-- the same for the direction of a vector of length one: only the rotational joints count -/
def turning : List (Joint ℝ × ℝ) → ℝ
  | [] => 0
  | (j, q) :: js => (match j.jointType with
      | .rotational _ => chord (q - j.position)
      | _ => 0) + turning js

end

end K
