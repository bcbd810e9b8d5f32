import Verif.Model.Transport
import Verif.Model.Eos
import Verif.Lemmas.Published
import Mathlib.Analysis.Complex.ExponentialBounds

/-!
# C125: the estimates are the published equations

The code works in SI units with converted constants. Each theorem says that converting its result to the unit of the publication gives the published
equation at the converted arguments (`Spec/Published.lean`).
-/

namespace Verif

open Real Published Verif.Transport Verif.Vaporization Verif.Mixing

/-- `DL_Wilke_Chang` is the equation of Wilke and Chang. -/
theorem C125_wilke_chang (T MA MB rhoA mu phi : ℝ) (hA : 0 < MA) (hr : 0 < rhoA) :
    cm2s (dlWilkeChang T MA MB rhoA mu phi) = wilkeChang phi (gmol MB) T (cP mu) (cm3 (MA / rhoA)) := by
  have h : 0 < MA / rhoA := div_pos hA hr
  unfold cm2s dlWilkeChang wilkeChang gmol cP cm3
  rw [sqrt_eq_rpow, rpow_neg (by positivity), show (1e6 : ℝ) * MA / rhoA = 10 ^ 6 * (MA / rhoA) by ring, show phi * MB * 1e3 = phi * (1000 * MB) by ring,
    show mu * 1e3 = 1000 * mu by ring, div_eq_mul_inv, mul_inv]
  ring

example : (0 : ℝ) < 0.032 ∧ (0 : ℝ) < 790 := by norm_num

/-- The constant 5.9e-17 of the docstring of `DL_Wilke_Chang`, which works in SI units, agrees within 1 %. -/
theorem C125_wilke_chang_si (T MA MB rhoA mu phi : ℝ) (hT : 0 < T) (hA : 0 < MA) (hB : 0 < MB) (hr : 0 < rhoA) (hm : 0 < mu) (hp : 0 < phi) :
    |dlWilkeChang T MA MB rhoA mu phi / (5.9e-17 * √(phi * MB) * T / (mu * (MA / rhoA) ^ (0.6 : ℝ))) - 1| ≤ 0.01 := by
  have h : 0 < MA / rhoA := div_pos hA hr
  have hb : 0 < phi * MB := mul_pos hp hB
  unfold dlWilkeChang
  rw [show (1e6 : ℝ) * MA / rhoA = 1e6 * (MA / rhoA) by ring, mul_rpow (by norm_num) h.le, Real.sqrt_mul hb.le]
  -- `s = √1000 / 1e6^0.6 = 1000^(-0.7)`
  have key : √1e3 / (1e6 : ℝ) ^ (0.6 : ℝ) = (1e3 : ℝ) ^ (-0.7 : ℝ) := by
    rw [sqrt_eq_rpow, show (1e6 : ℝ) = 1e3 ^ (2 : ℝ) by norm_num, ← rpow_mul (by norm_num), ← rpow_sub (by norm_num)]
    norm_num
  have hs : (0.00794 : ℝ) < (1e3 : ℝ) ^ (-0.7 : ℝ) ∧ (1e3 : ℝ) ^ (-0.7 : ℝ) < 0.00795 := by
    have e : ((1e3 : ℝ) ^ (-0.7 : ℝ)) ^ 10 = 1e-21 := by
      rw [← rpow_natCast, ← rpow_mul (by norm_num), show (-0.7 : ℝ) * ((10 : ℕ) : ℝ) = ((-7 : ℤ) : ℝ) by norm_num, rpow_intCast]
      norm_num
    constructor
    · refine lt_of_pow_lt_pow_left₀ 10 (by positivity) ?_
      rw [e]; norm_num
    · refine lt_of_pow_lt_pow_left₀ 10 (by norm_num) ?_
      rw [e]; norm_num
  have hx : 0 < √(phi * MB) := sqrt_pos.2 hb
  have hv : 0 < (MA / rhoA) ^ (0.6 : ℝ) := rpow_pos_of_pos h _
  have h6 : 0 < (1e6 : ℝ) ^ (0.6 : ℝ) := by positivity
  rw [← key] at hs
  generalize √(phi * MB) = x at *
  generalize (MA / rhoA) ^ (0.6 : ℝ) = v at *
  generalize (1e6 : ℝ) ^ (0.6 : ℝ) = c at *
  generalize √(1e3 : ℝ) = s at *
  have e : 7.4e-12 * (x * s) * T / (mu * 1e3 * (c * v)) / (5.9e-17 * x * T / (mu * v)) = 7.4e-12 / 5.9e-17 / 1e3 * (s / c) := by
    field_simp
    try ring
  rw [e, abs_le]
  obtain ⟨h1, h2⟩ := hs
  constructor <;> linarith

example : (0 : ℝ) < 300 ∧ (0 : ℝ) < 0.032 ∧ (0 : ℝ) < 0.018 ∧ (0 : ℝ) < 790 ∧ (0 : ℝ) < 1e-3 ∧ (0 : ℝ) < 2.6 := by norm_num

/-- `DL_Hayduk_Minhas` is the equation of Hayduk and Minhas for the system named. -/
theorem C125_hayduk_minhas (T MA rhoA mu : ℝ) (hA : 0 < MA) (hr : 0 < rhoA) :
    (dlHaydukMinhas T .paraffin MA rhoA mu).map cm2s = .ok (haydukMinhasParaffin T (cP mu) (cm3 (MA / rhoA))) ∧
    (dlHaydukMinhas T .aqueous MA rhoA mu).map cm2s = .ok (haydukMinhasAqueous T (cP mu) (cm3 (MA / rhoA))) := by
  have h : 0 < MA / rhoA := div_pos hA hr
  unfold dlHaydukMinhas haydukMinhasParaffin haydukMinhasAqueous
  simp only [show (1e6 : ℝ) * MA / rhoA = cm3 (MA / rhoA) by unfold cm3; ring, show mu * 1e3 = cP mu by unfold cP; ring, Except.map]
  have hv : 0 < cm3 (MA / rhoA) := by unfold cm3; positivity
  generalize cm3 (MA / rhoA) = V at *
  generalize cP mu = m
  unfold cm2s
  rw [rpow_neg hv.le 0.71]
  constructor
  · congr 1; ring
  · congr 1; ring

example : (0 : ℝ) < 0.086 ∧ (0 : ℝ) < 613 := by norm_num

/-- `DV_Wilke_Lee` is the equation of Wilke and Lee, for two vapours and for a vapour in air. -/
theorem C125_wilke_lee (T P MA MB rhoA rhoB TA TB : ℝ) (hT : 0 ≤ T) (hA : 0 < MA) (hB : 0 < MB) :
    (dvWilkeLee T P MA MB rhoA (some rhoB) TA (some TB)).map cm2s =
      .ok (wilkeLee T (bar P) (gmol MA) (gmol MB) (wilkeLeeLJ (cm3 (MA / rhoA)) TA) (wilkeLeeLJ (cm3 (MB / rhoB)) TB)) ∧
    (dvWilkeLee T P MA MB rhoA none TA none).map cm2s =
      .ok (wilkeLee T (bar P) (gmol MA) (gmol MB) (wilkeLeeLJ (cm3 (MA / rhoA)) TA) airLJ) := by
  constructor
  · show Except.ok _ = Except.ok _
    rw [wilkeLee_conv T P MA MB hT hA hB]
    unfold wilkeLeeLJ cm3
    rw [show (1e6 : ℝ) * MA / rhoA = 10 ^ 6 * (MA / rhoA) by ring, show (1e6 : ℝ) * MB / rhoB = 10 ^ 6 * (MB / rhoB) by ring]
  · show Except.ok _ = Except.ok _
    rw [wilkeLee_conv T P MA MB hT hA hB]
    unfold wilkeLeeLJ cm3 airLJ
    rw [show (1e6 : ℝ) * MA / rhoA = 10 ^ 6 * (MA / rhoA) by ring, show (97.0 : ℝ) = 97 by norm_num]

example : (0 : ℝ) ≤ 300 ∧ (0 : ℝ) < 0.062 ∧ (0 : ℝ) < 0.029 := by norm_num

/-- `DL_Stokes_Einstein`: the drag `6π μ R` times the diffusion coefficient is the thermal energy. -/
theorem C125_stokes_einstein (kB T R mu : ℝ) (hR : 0 < R) (hm : 0 < mu) : dlStokesEinstein kB T R mu * (6 * π * mu * R) = kB * T := by
  unfold dlStokesEinstein
  have := pi_pos
  field_simp

example : (0 : ℝ) < 1e-9 ∧ (0 : ℝ) < 1e-3 := by norm_num

/-- `MUVPC_Jossi` solves the equation of Jossi, Stiel and Thodos for the residual viscosity, with the constant of the unit conversion rounded by less
than one part in 10⁹. -/
theorem C125_jossi (rhor M Tc Pc : ℝ) (hM : 0 < M) (hT : 0 < Tc) (hP : 0 < Pc) :
    |microP (muvpcJossi rhor M Tc Pc) * xiJossi Tc (atm Pc) (gmol M) - (jossi rhor ^ 4 - 1)| ≤ 1e-9 * |jossi rhor ^ 4 - 1| := by
  have hx := xiJossi_si M Tc Pc hM hT hP
  have hc := jossi_const
  have hg : 0 < (Tc / (M ^ 3 * Pc ^ 4)) ^ (1 / 6 : ℝ) := by positivity
  unfold microP muvpcJossi
  rw [hx]
  change |10 ^ 7 * ((jossi rhor ^ 4 - 1) / _) * _ - _| ≤ _
  generalize (Tc / (M ^ 3 * Pc ^ 4)) ^ (1 / 6 : ℝ) = g at *
  generalize (101325 ^ 4 / 1000 ^ 3 : ℝ) ^ (1 / 6 : ℝ) = c at *
  generalize jossi rhor ^ 4 - 1 = q
  have e : 10 ^ 7 * (q / (6.872969367e8 * g)) * (c * g) - q = q * (10 ^ 7 * c / 6.872969367e8 - 1) := by field_simp
  rw [e, abs_mul, mul_comm]
  refine mul_le_mul_of_nonneg_right ?_ (abs_nonneg _)
  rw [abs_le, neg_le_sub_iff_le_add, ← sub_le_iff_le_add, le_div_iff₀ (by norm_num), sub_le_iff_le_add, div_le_iff₀ (by norm_num)]
  obtain ⟨h1, h2⟩ := hc
  constructor <;> linarith

example : (0 : ℝ) < 0.044 ∧ (0 : ℝ) < 369.8 ∧ (0 : ℝ) < 42.5e5 := by norm_num

/-- `MUVMXPC_Dean_Stiel` solves the equation of Dean and Stiel, at the pseudocritical constants of the mixture, with the constant of the unit conversion
rounded by less than 0.1 %. -/
theorem C125_dean_stiel {N : ℕ} (R v : ℝ) (y M Tc Pc Zc : Fin N → ℝ) (hM : 0 < ∑ i, y i * M i)
    (hT : 0 < (pseudocritical R y Tc Pc Zc none).1) (hP : 0 < (pseudocritical R y Tc Pc Zc none).2.1) :
    |cP (muvmxpcDeanStiel R v y M Tc Pc Zc) *
        xiJossi (pseudocritical R y Tc Pc Zc none).1 (atm (pseudocritical R y Tc Pc Zc none).2.1) (gmol (∑ i, y i * M i)) -
      deanStiel ((pseudocritical R y Tc Pc Zc none).2.2.1 / v)| ≤ 1e-3 * |deanStiel ((pseudocritical R y Tc Pc Zc none).2.2.1 / v)| := by
  have hc := dean_const
  unfold cP muvmxpcDeanStiel
  dsimp only
  generalize (pseudocritical R y Tc Pc Zc none).1 = T at *
  generalize (pseudocritical R y Tc Pc Zc none).2.1 = P at *
  generalize (pseudocritical R y Tc Pc Zc none).2.2.1 / v = r at *
  generalize ∑ i, y i * M i = Mm at *
  have e : (10.8e-5 : ℝ) * (exp (1.439 * r) - exp (-1.111 * r ^ (1.858 : ℝ))) = deanStiel r := by unfold deanStiel; rw [neg_mul]
  rw [e, xiJossi_si' Mm T P hM hT hP]
  have hg : 0 < T ^ (1 / 6 : ℝ) := by positivity
  have hs : 0 < √Mm := sqrt_pos.2 hM
  have hp : 0 < P ^ (2 / 3 : ℝ) := by positivity
  generalize T ^ (1 / 6 : ℝ) = g at *
  generalize √Mm = m at *
  generalize P ^ (2 / 3 : ℝ) = p at *
  generalize (101325 : ℝ) ^ (2 / 3 : ℝ) / √1000 = c at *
  generalize deanStiel r = q
  have e : 1000 * (q / (6.87e4 * g / (m * p))) * (c * (g / (m * p))) - q = q * (1000 * c / 6.87e4 - 1) := by field_simp
  rw [e, abs_mul, mul_comm]
  refine mul_le_mul_of_nonneg_right ?_ (abs_nonneg _)
  rw [abs_le]
  obtain ⟨h1, h2⟩ := hc
  constructor <;> linarith

example : 0 < ∑ i, (![0.5, 0.5] : Fin 2 → ℝ) i * (![0.016, 0.044] : Fin 2 → ℝ) i ∧
    0 < (pseudocritical 8.314 ![0.5, 0.5] ![190.6, 369.8] ![46e5, 42e5] ![0.288, 0.276] none).1 ∧
    0 < (pseudocritical 8.314 ![0.5, 0.5] ![190.6, 369.8] ![46e5, 42e5] ![0.288, 0.276] none).2.1 := by
  simp only [pseudocritical, Fin.sum_univ_two]
  norm_num

/-- `_MUV_Lucas_FP0` is the polarity factor of Lucas; for a polar vapour the compressibility factor must not exceed 0.292. -/
theorem C125_lucas_polarity (Tr Tc Pc Zc dm : ℝ) (hZ : Zc ≤ 0.292) :
    lucasFP0 Tr Tc Pc Zc dm = some (polarityLucas (dipoleLucas dm (bar Pc) Tc) Zc Tr) := by
  have e : 52.46 * dm ^ 2 * (Pc / 1e5) / Tc ^ 2 = dipoleLucas dm (bar Pc) Tc := by
    unfold dipoleLucas bar
    rw [show (1e5 : ℝ) = 10 ^ 5 by norm_num]
    ring
  unfold lucasFP0 polarityLucas
  dsimp only
  rw [e]
  generalize dipoleLucas dm (bar Pc) Tc = m
  have hp : fpow (0.292 - Zc) 1.72 = some ((0.292 - Zc) ^ (1.72 : ℝ)) := if_neg (not_lt.2 (sub_nonneg.2 hZ))
  rw [hp]
  simp only [Option.bind_eq_bind, Option.bind_some, Option.pure_def]
  by_cases h1 : m ≤ 0.022
  · rw [if_pos h1, if_pos h1, zero_add]
  rw [if_neg h1, if_neg h1]
  by_cases h2 : m < 0.075
  · rw [if_pos h2, if_neg (not_le.2 h2), add_comm]
  · rw [if_neg h2, if_pos (not_lt.1 h2), add_comm]

example : (0.25 : ℝ) ≤ 0.292 := by norm_num

/-- `MUV_Lucas` is the method of Lucas, in both regimes. -/
theorem C125_lucas (T P M Tc Pc Zc dm : ℝ) (hT : 0 ≤ T / Tc) (hZ : Zc ≤ 0.292) :
    (muvLucas T P M Tc Pc Zc dm).map microP =
      some (lucas (T / Tc) (P / Pc) (xiLucas Tc (bar Pc) (gmol M)) (polarityLucas (dipoleLucas dm (bar Pc) Tc) Zc (T / Tc))) := by
  unfold muvLucas
  dsimp only
  rw [C125_lucas_polarity _ _ _ _ _ hZ]
  simp only [Option.bind_eq_bind, Option.bind_some, Option.pure_def, Option.map_some, Option.some.injEq]
  exact lucas_conv _ _ _ _ _ _ hT

example : (0 : ℝ) ≤ 420 / 405.4 ∧ (0.255 : ℝ) ≤ 0.292 := by norm_num

/-- `MUVMX_Lucas` is the method of Lucas at the pseudocritical constants, with the mean polarity factor. -/
theorem C125_lucas_mixture {N : ℕ} (R T P : ℝ) (y M Tc Pc Zc dm : Fin N → ℝ) (hT : 0 ≤ T / ∑ i, y i * Tc i) (hZ : ∀ i, Zc i ≤ 0.292) :
    let pc := pseudocritical R y Tc Pc Zc none
    (muvmxLucas R T P y M Tc Pc Zc dm).map microP =
      some (lucas (T / pc.1) (P / pc.2.1) (xiLucas pc.1 (bar pc.2.1) (gmol (∑ i, y i * M i)))
        (∑ i, y i * polarityLucas (dipoleLucas (dm i) (bar (Pc i)) (Tc i)) (Zc i) (T / Tc i))) := by
  have hF : odot y (fun i => lucasFP0 (T / Tc i) (Tc i) (Pc i) (Zc i) (dm i)) =
      some (∑ i, y i * polarityLucas (dipoleLucas (dm i) (bar (Pc i)) (Tc i)) (Zc i) (T / Tc i)) := by
    unfold odot
    simp only [C125_lucas_polarity _ _ _ _ _ (hZ _), Option.isSome_some, implies_true, if_true, Option.getD_some]
  have hP : R * (∑ i, y i * Tc i) * (∑ i, y i * Zc i) / ∑ i, y i * (R * Tc i * Zc i / Pc i) = (pseudocritical R y Tc Pc Zc none).2.1 := by
    show _ = R * (∑ i, y i * Zc i) * (∑ i, y i * Tc i) / ∑ i, y i * (Zc i * R * Tc i / Pc i)
    congr 1
    · ring
    · exact Finset.sum_congr rfl fun i _ => by ring
  intro pc
  unfold muvmxLucas
  dsimp only
  rw [hF]
  simp only [Option.bind_eq_bind, Option.bind_some, Option.pure_def, Option.map_some, Option.some.injEq, hP]
  exact lucas_conv _ _ _ _ _ _ hT

example : (0 : ℝ) ≤ 420 / ∑ i, (![0.5, 0.5] : Fin 2 → ℝ) i * (![405.4, 126.2] : Fin 2 → ℝ) i ∧ ∀ i, (![0.255, 0.289] : Fin 2 → ℝ) i ≤ 0.292 := by
  constructor
  · simp only [Fin.sum_univ_two]; norm_num
  · intro i; fin_cases i <;> norm_num

/-- `KVPC_Stiel_Thodos` solves the equation of Stiel and Thodos for the residual conductivity, and refuses reduced densities from 2.8 on. -/
theorem C125_stiel_thodos (R NA v M Tc Pc Zc : ℝ) (hR : 0 < R) (hN : 0 < NA) (hM : 0 < M) (hT : 0 < Tc) (hP : 0 < Pc) (hZ : 0 < Zc)
    (hr : Zc * R * Tc / Pc / v < 2.8) :
    (kvpc R NA v M Tc Pc Zc).map (fun dk => dk * (Tc * M ^ 3 * NA ^ 2 / (R ^ 5 * Pc ^ 4)) ^ (1 / 6 : ℝ) * Zc ^ 5) =
      .ok (stielThodos (Zc * R * Tc / Pc / v)) := by
  have hg : 0 < (Tc * M ^ 3 * NA ^ 2 / (R ^ 5 * Pc ^ 4)) ^ (1 / 6 : ℝ) := by positivity
  unfold kvpc stielThodos
  dsimp only
  generalize (Tc * M ^ 3 * NA ^ 2 / (R ^ 5 * Pc ^ 4)) ^ (1 / 6 : ℝ) = g at *
  generalize Zc * R * Tc / Pc / v = r at *
  have hz : Zc ^ 5 ≠ 0 := (pow_pos hZ 5).ne'
  have hg' := hg.ne'
  simp only [show (2.0 : ℝ) = 2 by norm_num]
  split_ifs with h1 h2 <;> simp only [Except.map] <;> congr 1 <;> (field_simp; try norm_num)

example : (0 : ℝ) < 8.314 ∧ (0 : ℝ) < 6.022e23 ∧ (0 : ℝ) < 0.044 ∧ (0 : ℝ) < 369.8 ∧ (0 : ℝ) < 42.5e5 ∧ (0 : ℝ) < 0.276 ∧
    (0.276 * 8.314 * 369.8 / 42.5e5 / 5e-4 : ℝ) < 2.8 := by norm_num

/-- The group used by `KVPC_Stiel_Thodos` is the `Γ` of the literature, `210 (Tc M³/Pc⁴)^(1/6)` with g/mol and bar, within 2 %. -/
theorem C125_stiel_thodos_gamma (R NA M Tc Pc : ℝ) (hR : 8.314 < R ∧ R < 8.315) (hN : 6.022e23 < NA ∧ NA < 6.023e23) (hM : 0 < M) (hT : 0 < Tc)
    (hP : 0 < Pc) :
    |(Tc * M ^ 3 * NA ^ 2 / (R ^ 5 * Pc ^ 4)) ^ (1 / 6 : ℝ) / gammaStielThodos Tc (gmol M) (bar Pc) - 1| ≤ 0.02 := by
  have h := gamma_const R NA hR hN
  have hR0 : 0 < R := by linarith [hR.1]
  have hN0 : 0 < NA := by linarith [hN.1]
  have e : Tc * M ^ 3 * NA ^ 2 / (R ^ 5 * Pc ^ 4) = NA ^ 2 / (R ^ 5 * (10 ^ 20 * 10 ^ 9)) * (Tc * gmol M ^ 3 / bar Pc ^ 4) := by
    unfold gmol bar
    field_simp
    norm_num
  have hq : 0 < Tc * gmol M ^ 3 / bar Pc ^ 4 := by unfold gmol bar; positivity
  unfold gammaStielThodos
  rw [e, mul_rpow (by positivity) hq.le]
  have hg : 0 < (Tc * gmol M ^ 3 / bar Pc ^ 4) ^ (1 / 6 : ℝ) := rpow_pos_of_pos hq _
  generalize (Tc * gmol M ^ 3 / bar Pc ^ 4) ^ (1 / 6 : ℝ) = g at *
  generalize (NA ^ 2 / (R ^ 5 * (10 ^ 20 * 10 ^ 9))) ^ (1 / 6 : ℝ) = c at *
  rw [mul_div_mul_right _ _ hg.ne', abs_le, neg_le_sub_iff_le_add, ← sub_le_iff_le_add, le_div_iff₀ (by norm_num), sub_le_iff_le_add,
    div_le_iff₀ (by norm_num)]
  constructor <;> linarith [h.1, h.2]

example : (8.314 : ℝ) < 8.314462618 ∧ (8.314462618 : ℝ) < 8.315 ∧ (6.022e23 : ℝ) < 6.02214076e23 ∧ (6.02214076e23 : ℝ) < 6.023e23 := by norm_num

/-- `PL_Lee_Kesler`: the logarithm of the reduced vapour pressure is `f⁽⁰⁾ + ω f⁽¹⁾` with the acentric factor of Lee and Kesler. -/
theorem C125_lee_kesler (T Tb Tc Pc : ℝ) (hP : 0 < Pc) (hb : lk1 (Tb / Tc) ≠ 0) :
    ∃ P, plLeeKesler T Tb Tc Pc = some P ∧ log (P / Pc) = lk0 (T / Tc) + lkOmega (Tb / Tc) (atm Pc) * lk1 (T / Tc) := by
  refine ⟨_, by unfold plLeeKesler odiv; dsimp only; rw [if_neg (show ¬(fLK (Tb / Tc)).2 = 0 from hb)]; rfl, ?_⟩
  rw [mul_div_cancel_left₀ _ hP.ne', log_exp]
  unfold lkOmega lk0 lk1 fLK atm
  dsimp only
  generalize (15.2518 - 15.6875 / (Tb / Tc) - 13.4721 * log (Tb / Tc) + 0.43577 * (Tb / Tc) ^ 6 : ℝ) = β
  ring

/-- Below the critical temperature the denominator is negative, so the acentric factor exists. -/
example : lk1 (1 / 2) ≠ 0 := by
  unfold lk1
  have h : log (1 / 2 : ℝ) = -log 2 := by rw [one_div, log_inv]
  have := log_two_lt_d9
  rw [h]
  intro h0
  norm_num at h0
  linarith

/-- `PL_Ambrose_Walton`. -/
theorem C125_ambrose_walton (T Tc Pc w : ℝ) (hT : 0 < T) (hc : T ≤ Tc) (hP : 0 < Pc) :
    ∃ P, plAmbroseWalton T Tc Pc w = some P ∧ log (P / Pc) = ambroseWalton (T / Tc) w := by
  have hTc : 0 < Tc := lt_of_lt_of_le hT hc
  have hr : T / Tc ≠ 0 := (div_pos hT hTc).ne'
  have h1 : ¬1 - T / Tc < 0 := not_lt.2 (sub_nonneg.2 ((div_le_one hTc).2 hc))
  refine ⟨Pc * exp (ambroseWalton (T / Tc) w), ?_, by rw [mul_div_cancel_left₀ _ hP.ne', log_exp]⟩
  unfold plAmbroseWalton ambroseWalton awForm
  simp only [odiv, fpow, if_neg hTc.ne', if_neg hr, if_neg h1, Option.bind_eq_bind, Option.bind_some, Option.pure_def, Option.some.injEq,
    show (1.5 : ℝ) = 3 / 2 by norm_num, show (2.5 : ℝ) = 5 / 2 by norm_num]
  congr 2
  ring

example : (0 : ℝ) < 347.25 ∧ (347.25 : ℝ) ≤ 617.15 ∧ (0 : ℝ) < 36.09e5 := by norm_num

/-- `PL_Wilson`. -/
theorem C125_wilson (T Tc Pc w : ℝ) (hT : 0 < T) (hP : 0 < Pc) :
    ∃ P, plWilson T Tc Pc w = some P ∧ log (P / Pc) = 5.373 * (1 + w) * (1 - 1 / (T / Tc)) := by
  refine ⟨_, by unfold plWilson odiv; rw [if_neg hT.ne']; rfl, ?_⟩
  rw [mul_div_cancel_left₀ _ hP.ne', log_exp, one_div_div]

example : (0 : ℝ) < 300 ∧ (0 : ℝ) < 40e5 := by norm_num

/-- `DHVL_Pitzer`: `ΔH/(R Tc) = 7.08 (1 - Tr)^0.354 + 10.95 ω (1 - Tr)^0.456`. -/
theorem C125_pitzer (R T Tc w : ℝ) (hR : 0 < R) (hTc : 0 < Tc) (hc : T ≤ Tc) :
    ∃ h, dhvlPitzer R T Tc w = some h ∧ h / (R * Tc) = 7.08 * (1 - T / Tc) ^ (0.354 : ℝ) + 10.95 * w * (1 - T / Tc) ^ (0.456 : ℝ) := by
  have h1 : ¬1 - T / Tc < 0 := not_lt.2 (sub_nonneg.2 ((div_le_one hTc).2 hc))
  refine ⟨_, by unfold dhvlPitzer; simp only [odiv, fpow, if_neg hTc.ne', if_neg h1, Option.bind_eq_bind, Option.bind_some, Option.pure_def]; rfl, ?_⟩
  rw [mul_div_cancel_left₀ _ (mul_pos hR hTc).ne']

example : (0 : ℝ) < 8.314 ∧ (0 : ℝ) < 540 ∧ (300 : ℝ) ≤ 540 := by norm_num

/-- `DHVL_Vetere`. -/
theorem C125_vetere (R Tb Tc Pc : ℝ) (hR : 0 < R) (hTb : 0 < Tb) (hTc : Tb ≤ Tc) (hP : 0 < Pc) :
    ∃ h, dhvlVetere R Tb Tc Pc = some h ∧ h / (R * Tc) = vetere (Tb / Tc) (bar Pc) := by
  have hc : 0 < Tc := lt_of_lt_of_le hTb hTc
  have hr : 0 < Tb / Tc := div_pos hTb hc
  have hr1 : Tb / Tc ≤ 1 := (div_le_one hc).2 hTc
  have hp : 0 < bar Pc := by unfold bar; positivity
  have e : Pc / 1e5 = bar Pc := by unfold bar; norm_num
  have hd : 0.37691 - 0.37306 * (Tb / Tc) + 0.15075 / bar Pc / (Tb / Tc) ^ 2 ≠ 0 := by
    have : 0 < 0.15075 / bar Pc / (Tb / Tc) ^ 2 := by positivity
    linarith
  refine ⟨_, by unfold dhvlVetere; simp only [e, odiv, if_neg hc.ne', if_neg (pow_pos hr 2).ne', if_neg hd, Option.bind_eq_bind, Option.bind_some]; rfl, ?_⟩
  unfold vetere
  rw [show 0.15075 * (bar Pc)⁻¹ * ((Tb / Tc) ^ 2)⁻¹ = 0.15075 / bar Pc / (Tb / Tc) ^ 2 by
    generalize Tb / Tc = r; rw [div_eq_mul_inv _ (r ^ 2), div_eq_mul_inv _ (bar Pc)]]
  generalize Tb / Tc = r at *
  rw [div_div, mul_comm _ (R * Tc), mul_assoc (R * Tc), mul_div_mul_left _ _ (mul_pos hR hc).ne']

example : (0 : ℝ) < 8.314 ∧ (0 : ℝ) < 373 ∧ (373 : ℝ) ≤ 647 ∧ (0 : ℝ) < 220e5 := by norm_num

/-- `DHVL_Kistiakowsky_Vetere`: the entropy of vaporisation `ΔH/Tb` is the published one for the kind of substance; that of esters is 3 % above that of
other polar compounds. -/
theorem C125_kistiakowsky_vetere (R Tb M : ℝ) (hT : 0 < Tb) (hM : 0 < M) :
    (∀ m, (dhvlKV R Tb m .any).map (Option.map (· / Tb)) = .ok (some (30.6 + R * log Tb))) ∧
    ((263 * gmol M) ^ (0.581 : ℝ) ≤ Tb → (dhvlKV R Tb (some M) .hydrocarbon).map (Option.map (· / Tb)) = .ok (some (kvHydrocarbon (gmol M) Tb))) ∧
    (dhvlKV R Tb (some M) .polar).map (Option.map (· / Tb)) = .ok (some (kvPolar (gmol M) Tb)) ∧
    (dhvlKV R Tb (some M) .ester).map (Option.map (· / Tb)) = .ok (some (1.03 * kvPolar (gmol M) Tb)) ∧
    (dhvlKV R Tb (some M) .acid_alcohol).map (Option.map (· / Tb)) = .ok (some (kvAlcohol (gmol M) Tb)) := by
  have hg : 0 < gmol M := by unfold gmol; positivity
  have e : M * 1e3 = gmol M := by unfold gmol; ring
  have hl : ∀ x, Vaporization.log10 x = logb 10 x := fun _ => rfl
  have hf : ¬263 * gmol M < 0 := by push Not; positivity
  have hTn := hT.ne'
  refine ⟨fun m => ?_, fun h => ?_, ?_, ?_, ?_⟩
  · simp [dhvlKV, Except.map, hTn]
  · have h2 : ¬Tb - (263 * gmol M) ^ (0.581 : ℝ) < 0 := by push Not; linarith
    simp only [dhvlKV, reduceCtorEq, if_false, if_true, e, fpow, if_neg hf, if_neg h2, odiv, if_neg hg.ne', Option.bind_eq_bind, Option.bind_some,
      Option.pure_def, Except.map, Option.map_some, mul_div_assoc, div_self hTn, mul_one, hl]
    rfl
  all_goals
    simp only [dhvlKV, reduceCtorEq, if_false, if_true, e, odiv, if_neg hg.ne', Option.bind_eq_bind, Option.bind_some, or_true, true_or, or_false, false_or,
      Option.pure_def, Except.map, Option.map_some, mul_div_cancel_right₀ _ hTn, hl, Except.ok.injEq, Option.some.injEq]
    simp only [kvPolar, kvAlcohol]
    ring

example : (0 : ℝ) < 353 ∧ (0 : ℝ) < 0.078 ∧ ((263 * gmol 0.078 : ℝ)) ^ (0.581 : ℝ) ≤ 353 := by
  refine ⟨by norm_num, by norm_num, ?_⟩
  unfold gmol
  have h : ((263 * (1000 * 0.078) : ℝ)) ^ (0.581 : ℝ) ≤ (263 * (1000 * 0.078) : ℝ) ^ (7 / 12 : ℝ) :=
    rpow_le_rpow_of_exponent_le (by norm_num) (by norm_num)
  refine h.trans (le_of_pow_le_pow_left₀ (n := 12) (by norm_num) (by norm_num) ?_)
  rw [← rpow_natCast, ← rpow_mul (by norm_num), show (7 / 12 : ℝ) * ((12 : ℕ) : ℝ) = ((7 : ℕ) : ℝ) by norm_num, rpow_natCast]
  norm_num

/-- `DHVL_Watson`: `ΔH` goes with the power 0.38 of the distance to the critical temperature. -/
theorem C125_watson (h1 T1 T2 Tc : ℝ) (hTc : 0 < Tc) (h1c : T1 < Tc) (h2c : T2 ≤ Tc) :
    dhvlWatson h1 T1 T2 Tc = some (h1 * ((Tc - T2) / (Tc - T1)) ^ (0.38 : ℝ)) := by
  have a : 1 - T1 / Tc = (Tc - T1) / Tc := by field_simp
  have b : 1 - T2 / Tc = (Tc - T2) / Tc := by field_simp
  have ha : 0 < Tc - T1 := by linarith
  have e : (Tc - T2) / Tc / ((Tc - T1) / Tc) = (Tc - T2) / (Tc - T1) := by field_simp
  have hq : ¬(Tc - T2) / (Tc - T1) < 0 := not_lt.2 (div_nonneg (by linarith) ha.le)
  unfold dhvlWatson
  simp only [odiv, fpow, if_neg hTc.ne', a, b, if_neg (div_pos ha hTc).ne', e, if_neg hq, Option.bind_eq_bind, Option.bind_some, Option.pure_def]

example : (0 : ℝ) < 647 ∧ (373 : ℝ) < 647 ∧ (400 : ℝ) ≤ 647 := by norm_num

/-- `B_pure` is Abbott's correlation. -/
theorem C125_abbott (R T Tc Pc w : ℝ) (hR : 0 < R) (hT : 0 ≤ T) (hTc : 0 < Tc) (hP : 0 < Pc) : bPure R T Tc Pc w * Pc / (R * Tc) = abbott (T / Tc) w := by
  have hr : 0 ≤ T / Tc := by positivity
  unfold bPure abbott
  dsimp only
  rw [rpow_neg hr, rpow_neg hr, div_eq_mul_inv 0.422, div_eq_mul_inv 0.172]
  field_simp

example : (0 : ℝ) < 8.314 ∧ (0 : ℝ) ≤ 300 ∧ (0 : ℝ) < 190 ∧ (0 : ℝ) < 46e5 := by norm_num

end Verif
