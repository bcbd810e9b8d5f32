import Verif.Model.VrentasDuda

/-! # Helper lemmas: free-volume diffusion coefficients -/

namespace Verif.VrentasDuda

open Real

/-- What `init` accepts. -/
theorem init_ok {s s' : VD} (h : init s = .ok s') : s' = s ∧ 0 ≤ s.D0 ∧ 0 ≤ s.E ∧ 0 ≤ s.v1 ∧ 0 ≤ s.v2 ∧ 0 ≤ s.z ∧ 0 ≤ s.K11 ∧ 0 ≤ s.K12 ∧ 0 ≤ s.Tg1 ∧ 0 ≤ s.Tg2 ∧
    (0.5 ≤ s.y ∧ s.y ≤ 1) ∧ (-10 ≤ s.X ∧ s.X ≤ 10) := by
  unfold init at h
  split_ifs at h with hc
  injection h with h
  exact ⟨h.symm, hc⟩

end Verif.VrentasDuda
