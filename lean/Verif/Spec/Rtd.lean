import Mathlib.MeasureTheory.Integral.IntegralEqImproper

/-!
# What a pair of differential and cumulative residence time distributions must satisfy
-/

namespace Verif.Rtd

open MeasureTheory Set Filter

/-- `E` and `F` are the differential and the cumulative form of one residence time distribution with average `mean`. -/
structure IsRtd (E F : ℝ → ℝ) (mean : ℝ) : Prop where
  /-- Nothing has left at time zero. -/
  zero : F 0 = 0
  /-- `F` never decreases. -/
  mono : MonotoneOn F (Ici 0)
  /-- Everything leaves in the end. -/
  lim : Tendsto F atTop (nhds 1)
  /-- `E` is not negative. -/
  nonneg : ∀ t, 0 ≤ t → 0 ≤ E t
  /-- `F` accumulates `E`. -/
  cum : ∀ t, 0 ≤ t → F t = ∫ x in (0 : ℝ)..t, E x
  /-- The mass of `E` is one. -/
  mass : ∫ t in Ioi 0, E t = 1
  /-- The first moment of `E` exists. -/
  finite : IntegrableOn (fun t => t * E t) (Ioi 0)
  /-- The average residence time. -/
  mean : ∫ t in Ioi 0, t * E t = mean

end Verif.Rtd
