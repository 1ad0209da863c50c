import Mathlib.Probability.Moments.SubGaussian
import Mathlib.Analysis.SpecialFunctions.Log.Basic

/-! # Hoeffding's lemma for a single trial -/
namespace Verif
open MeasureTheory ProbabilityTheory

/-- The moments of a centred trial with probability `s`. -/
theorem bernoulli_mgf {s : ℝ} (h0 : 0 ≤ s) (h1 : s ≤ 1) (c : ℝ) :
    s * Real.exp (c * (1 - s)) + (1 - s) * Real.exp (c * (-s)) ≤ Real.exp (c ^ 2 / 8) := by
  set μ : Measure ℝ := ENNReal.ofReal s • Measure.dirac (1 - s) + ENNReal.ofReal (1 - s) • Measure.dirac (-s) with hμ
  have hs' : 0 ≤ 1 - s := by linarith
  have hint : ∀ f : ℝ → ℝ, Measurable f → ∫ x, f x ∂μ = s * f (1 - s) + (1 - s) * f (-s) := by
    intro f hf
    rw [hμ, integral_add_measure, integral_smul_measure, integral_smul_measure, integral_dirac, integral_dirac,
      ENNReal.toReal_ofReal h0, ENNReal.toReal_ofReal hs', smul_eq_mul, smul_eq_mul]
    · exact (integrable_dirac (by simp)).smul_measure ENNReal.ofReal_ne_top
    · exact (integrable_dirac (by simp)).smul_measure ENNReal.ofReal_ne_top
  have hprob : IsProbabilityMeasure μ := by
    constructor
    rw [hμ]
    simp [← ENNReal.ofReal_add h0 hs']
  have hg := hasSubgaussianMGF_of_mem_Icc_of_integral_eq_zero (μ := μ) (X := id) (a := -s) (b := 1 - s)
    aemeasurable_id (by
      rw [ae_iff, hμ]
      simp) (by
      rw [show (∫ x, id x ∂μ) = ∫ x, x ∂μ from rfl, hint (fun x => x) measurable_id]; ring)
  have := hg.mgf_le c
  rw [mgf, hint (fun x => Real.exp (c * id x)) (by fun_prop)] at this
  refine this.trans (le_of_eq ?_)
  congr 1
  have : ((‖(1 - s) - (-s)‖₊ : NNReal)) = 1 := by
    rw [show (1 - s) - (-s) = (1 : ℝ) by ring]; simp
  rw [this]
  push_cast
  ring

end Verif
