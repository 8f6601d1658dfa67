import Verif.Spec.Float
import Mathlib.Analysis.Real.Sqrt
/-!
# Specification: arithmetic of binary32 (IEEE 754-2019, sections 4.3, 5.4, 5.11, 6, 7)

Every operation on finite numbers yields the number nearest to the exact result.
-/
namespace PS.Spec
open F32

/-- `|x|`: the sign is cleared (section 5.5.1). -/
def absolute : F32 → F32
  | nan => nan
  | inf _ => inf false
  | fin _ m e => fin false m e

/-- `-x`: the sign is reversed (section 5.5.1). -/
def opposite : F32 → F32
  | nan => nan
  | inf s => inf (!s)
  | fin s m e => fin (!s) m e

/-- `IsSum x y z`: `z` is `x + y`.  A sum that is exactly zero is `+0`, unless both
operands are negative. -/
def IsSum : F32 → F32 → F32 → Prop
  | nan, _, z => z = nan
  | _, nan, z => z = nan
  | inf s, inf t, z => z = if s = t then inf s else nan
  | inf s, fin _ _ _, z => z = inf s
  | fin _ _ _, inf t, z => z = inf t
  | fin s m e, fin t n f, z =>
    if val s m e + val t n f = 0 then z = fin (s && t) 0 0
    else Nearest (decide (val s m e + val t n f < 0)) |val s m e + val t n f| z

/-- `IsDifference x y z`: `z` is `x - y`. -/
def IsDifference : F32 → F32 → F32 → Prop
  | nan, _, z => z = nan
  | _, nan, z => z = nan
  | inf s, inf t, z => z = if s = t then nan else inf s
  | inf s, fin _ _ _, z => z = inf s
  | fin _ _ _, inf t, z => z = inf (!t)
  | fin s m e, fin t n f, z =>
    if val s m e - val t n f = 0 then z = fin (s && !t) 0 0
    else Nearest (decide (val s m e - val t n f < 0)) |val s m e - val t n f| z

/-- `IsProduct x y z`: `z` is `x * y`, negative if the signs differ. -/
def IsProduct : F32 → F32 → F32 → Prop
  | nan, _, z => z = nan
  | _, nan, z => z = nan
  | inf s, inf t, z => z = inf (s != t)
  | inf s, fin t n f, z => if val t n f = 0 then z = nan else z = inf (s != t)
  | fin s m e, inf t, z => if val s m e = 0 then z = nan else z = inf (s != t)
  | fin s m e, fin t n f, z => Nearest (s != t) |val s m e * val t n f| z

/-- `IsQuotient x y z`: `z` is `x / y`, negative if the signs differ. -/
def IsQuotient : F32 → F32 → F32 → Prop
  | nan, _, z => z = nan
  | _, nan, z => z = nan
  | inf _, inf _, z => z = nan
  | inf s, fin t _ _, z => z = inf (s != t)
  | fin s _ _, inf t, z => z = fin (s != t) 0 0
  | fin s m e, fin t n f, z =>
    if val t n f = 0 then (if val s m e = 0 then z = nan else z = inf (s != t))
    else Nearest (s != t) |val s m e / val t n f| z

/-- `IsRoot x z`: `z` is the square root of `x`: that of `-0` is `-0`, that of any
other negative number does not exist, and otherwise there is no number nearer to
the real square root (ties cannot occur but would be resolved to even). -/
def IsRoot : F32 → F32 → Prop
  | nan, z => z = nan
  | inf s, z => z = if s then nan else inf false
  | fin s m e, z =>
    if val s m e = 0 then z = fin s 0 0
    else if s then z = nan
    else ∃ n f, z = fin false n f ∧ z.WF ∧ ∀ n' f', (fin false n' f').WF →
      |√(val s m e : ℝ) - (val false n f : ℝ)| ≤ |√(val s m e : ℝ) - (val false n' f' : ℝ)| ∧
      (|√(val s m e : ℝ) - (val false n f : ℝ)| = |√(val s m e : ℝ) - (val false n' f' : ℝ)| →
        val false n' f' ≠ val false n f → n % 2 = 0)

/-- `x == y`: the zeros are equal, and NaN is not equal to itself. -/
def Equal : F32 → F32 → Prop
  | inf s, inf t => s = t
  | fin s m e, fin t n f => val s m e = val t n f
  | _, _ => False

/-- `x <= y` -/
def LessEqual : F32 → F32 → Prop
  | nan, _ => False
  | _, nan => False
  | inf s, inf t => s = true ∨ t = false
  | inf s, fin _ _ _ => s = true
  | fin _ _ _, inf t => t = false
  | fin s m e, fin t n f => val s m e ≤ val t n f

end PS.Spec
