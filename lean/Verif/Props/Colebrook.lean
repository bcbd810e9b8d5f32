import Verif.Lemmas.ColebrookLoop
import Verif.Props.Haaland

/-!
# C129: `fD_Colebrook` converges
-/

namespace Verif.Flow

open Real

/-- **C129.** For every `2300 ≤ Re ≤ 1e8` and relative roughness up to 0.05, `fD_Colebrook` converges (it never raises), to within 1.01e-6 of the solution of Colebrook's
equation. -/
theorem C129_colebrook {Re er : ℝ} (hRe : 2300 ≤ Re) (hRe2 : Re ≤ 1e8) (h0 : 0 ≤ er) (h1 : er ≤ 0.05) :
    ∃ f f', fDColebrook Re er = .ok f ∧ Colebrook Re er f' ∧ |f - f'| ≤ 1.01e-6 := by
  have hR0 : 0 < Re := by linarith
  obtain ⟨f, hf⟩ := C86_colebrook_exists hRe h0 (by linarith)
  obtain ⟨u, hu, hu1, hu2, e, b1, b2, -⟩ := haaland_compare hRe hRe2 h0 h1 hf
  have hsf := sqrt_pos.2 hf.1
  have h10 := log10_pos
  have hlo : (2.3 : ℝ) ≤ log 10 := by iv
  have hhi : log 10 ≤ (2.303 : ℝ) := by iv
  have hlo' : (2.3025 : ℝ) ≤ log 10 := by iv
  have hu3 : 3.35 ≤ u := by
    rw [mul_div_assoc', le_div_iff₀ (by norm_num)] at hu1
    nlinarith
  have hu4 : u ≤ 12.9 := by
    rw [mul_div_assoc', div_le_iff₀ (by norm_num)] at hu2
    nlinarith
  have hroot : cres (er / 3.7) (2.51 / Re) (1 / √f) = 0 := by
    have := hf.2
    unfold cres
    rw [show 2.51 / (Re * √f) = 2.51 / Re * (1 / √f) by field_simp] at this
    unfold logb at this
    linear_combination this
  have hfs : 1 / (1 / √f) ^ 2 = f := by rw [div_pow, sq_sqrt hf.1.le, one_pow, one_div_one_div]
  have fin : (∃ r, newtonLoop (colebrookEq Re er) 1e-6 1e-6 50 50 0 (1 / u ^ 2) none 0 [] = .ok r ∧ r.1.success = true ∧ |r.1.x - 1 / (1 / √f) ^ 2| ≤ 1.01e-6) →
      ∃ g g', fDColebrook Re er = .ok g ∧ Colebrook Re er g' ∧ |g - g'| ≤ 1.01e-6 := by
    rintro ⟨r, r1, r2, r3⟩
    refine ⟨r.1.x, f, ?_, hf, by rwa [hfs] at r3⟩
    unfold fDColebrook rootNewton
    rw [e, r1, ok_bind, if_pos r2]
    rfl
  apply fin
  clear fin hfs hf
  generalize 1 / √f = s at *
  have hs1 : 3.3 ≤ s := by linarith
  have hs2 : s ≤ 13.15 := by linarith
  have ht : |1 - s / u| ≤ 0.0148 := by
    have e1 : s / u ≤ 1.0148 := by rw [div_le_iff₀ hu]; exact b2
    have e2 : 0.9925 ≤ s / u := by rw [le_div_iff₀ hu]; exact b1
    exact abs_le.2 ⟨by linarith, by linarith⟩
  rcases colebrook_pass hR0 h0 hs1 hs2 hroot (show s = u * (1 - (1 - s / u)) by field_simp; ring) hu (by norm_num) ht 49 0 (by norm_num) none 0 [] with
    r | ⟨-, u1, t1, fx1, m1, c1, q1, q2, q3, q4⟩
  · exact r
  rw [q1]
  have q5 : |t1| ≤ 0.00082 := q4.trans (by norm_num)
  rcases colebrook_pass hR0 h0 hs1 hs2 hroot q3 q2 (by norm_num) q5 48 1 (by norm_num) fx1 m1 c1 with
    r | ⟨-, u2, t2, fx2, m2, c2, p1, p2, p3, p4⟩
  · exact r
  rw [p1]
  have p5 : |t2| ≤ 0.000003 := p4.trans (by norm_num)
  rcases colebrook_pass hR0 h0 hs1 hs2 hroot p3 p2 (by norm_num) p5 47 2 (by norm_num) fx2 m2 c2 with
    r | ⟨z, -⟩
  · exact r
  · norm_num at z

/-- Water in a drawn tube: the hypotheses hold and a value is returned. -/
example : ∃ f f', fDColebrook 5e4 (0.0015 / 25) = .ok f ∧ Colebrook 5e4 (0.0015 / 25) f' ∧ |f - f'| ≤ 1.01e-6 :=
  C129_colebrook (by norm_num) (by norm_num) (by norm_num) (by norm_num)

end Verif.Flow
