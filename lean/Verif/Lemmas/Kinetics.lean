import Verif.Model.Kinetics
import Verif.Lemmas.Bessel
import Mathlib.Analysis.SpecialFunctions.Pow.Continuity

/-! # Helper lemmas: C44, C45: kinetic coefficients -/

namespace Verif.Kin

open Real

theorem bind_ok {β γ : Type} {x : Except Err β} {k : β → Except Err γ} {v : γ} (h : (x >>= k) = .ok v) : ∃ a, x = .ok a ∧ k a = .ok v := by
  cases x with
  | error e => cases h
  | ok a => exact ⟨a, rfl, h⟩

theorem map_ok {β γ : Type} {x : Except Err β} {k : β → γ} {v : γ} (h : x.map k = .ok v) : ∃ a, x = .ok a ∧ k a = v := by
  cases x with
  | error e => cases h
  | ok a => exact ⟨a, rfl, Except.ok.inj h⟩

theorem pdiv_inv {a b c : ℝ} (h : pdiv a b = .ok c) : b ≠ 0 ∧ c = a / b := by
  unfold pdiv at h
  split_ifs at h with hb
  exact ⟨hb, (Except.ok.inj h).symm⟩

theorem init_inv {k0 EaR : ℝ} {T0 Tmin Tmax : WithTop ℝ} {k : Arrhenius} (h : init k0 EaR T0 Tmin Tmax = .ok k) :
    k = ⟨k0, EaR, T0, Tmin, Tmax⟩ ∧ 0 ≤ k0 ∧ 0 ≤ T0 ∧ okSpan Tmin Tmax := by
  unfold init at h
  split_ifs at h with h1 h2 h3 h4 h5
  · exact ⟨(Except.ok.inj h).symm, by simpa using h1, by simpa using h2, by simpa using h5⟩

theorem ktii_pos {kt11 : ℝ} (hk : 0 < kt11) {icrit : ℕ} (hc : 1 ≤ icrit) {aS aL : ℝ} {i : ℕ} (hi : 1 ≤ i) : 0 < ktii kt11 icrit aS aL i := by
  have : (0 : ℝ) < i := by exact_mod_cast hi
  have : (0 : ℝ) < icrit := by exact_mod_cast hc
  unfold ktii
  split_ifs <;> positivity

end Verif.Kin
