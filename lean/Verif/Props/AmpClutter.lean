import Verif.Model.AmpClutter
import Verif.Props.ClutterIntegral
import Verif.Props.MeasModels
import Mathlib.MeasureTheory.Integral.ExpDecay
import Mathlib.MeasureTheory.Integral.IntegralEqImproper
import Mathlib.Probability.Distributions.Exponential

/-! Property C146 (amplitude clutter) and the Victoria Park part of C57. -/

set_option linter.unusedSectionVars false

namespace RFS
namespace AmpProps
open Real Matrix Meas MeasureTheory

theorem integral_amp (cfg : Cfg) (x : ℝ) : ∫ a in Set.Ioi x, ampClutter cfg a = cfg.clutter * exp (-(x * (7777 / 10000))) := by
  unfold ampClutter
  have : ∀ a : ℝ, cfg.clutter * exp (-a * (7777 / 10000)) * (7777 / 10000) = (cfg.clutter * (7777 / 10000)) * exp (-(7777 / 10000) * a) := by
    intro a
    rw [show -a * (7777 / 10000) = -(7777 / 10000) * a by ring]
    ring
  simp only [this]
  rw [integral_const_mul, integral_exp_mul_Ioi (by norm_num), show -(7777 / 10000) * x = -(x * (7777 / 10000)) by ring]
  field_simp

/-- **C146**: `clutterIntensityIntegral` is the integral of `clutterIntensity` over the measurements: the ranges and bearings that `measure` can produce and report as valid, and all amplitudes. -/
theorem C146_integral (cfg : Cfg) (h0 : 0 ≤ cfg.rMin) (h1 : cfg.rMin ≤ cfg.rMax) :
    ampIntegral cfg = ∫ _ in ClutterProps.spaceRngBrg cfg, ∫ a in Set.Ioi (0 : ℝ), ampClutter cfg a := by
  rw [setIntegral_const, integral_amp, zero_mul, neg_zero, exp_zero, mul_one, smul_eq_mul, mul_comm]
  have := ClutterProps.C78_rngbrg cfg h0 h1
  unfold ClutterProps.expectedClutter rngBrgIntegral at this
  rw [Measure.real, ← this, ampIntegral]

/-- **C146**: the false alarms of the simulator have the amplitudes that the filter expects: the probability of an amplitude above `a` is that of the density of `clutterIntensity`. -/
theorem C146_simulated (cfg : Cfg) (hc : 0 < cfg.clutter) (a : ℝ) (ha : 0 ≤ a) :
    (ProbabilityTheory.expMeasure 1 {e | a < simAmplitude e}).toReal = (∫ s in Set.Ioi a, ampClutter cfg s) / ∫ s in Set.Ioi (0 : ℝ), ampClutter cfg s := by
  have hset : {e | a < simAmplitude e} = (Set.Iic (a * (7777 / 10000)))ᶜ := by
    ext e
    unfold simAmplitude
    simp only [Set.mem_setOf_eq, Set.mem_compl_iff, Set.mem_Iic, not_le]
    rw [lt_div_iff₀ (by norm_num)]
  have := ProbabilityTheory.isProbabilityMeasure_expMeasure one_pos
  have hp : ((ProbabilityTheory.expMeasure 1) (Set.Iic (a * (7777 / 10000)))ᶜ).toReal = 1 - (ProbabilityTheory.expMeasure 1).real (Set.Iic (a * (7777 / 10000))) := by
    exact probReal_compl_eq_one_sub measurableSet_Iic
  rw [hset, hp, ← ProbabilityTheory.cdf_eq_real, ProbabilityTheory.cdf_expMeasure_eq one_pos, if_pos (by positivity), integral_amp, integral_amp, zero_mul, neg_zero, exp_zero, mul_one, one_mul, mul_div_cancel_left₀ _ hc.ne']
  ring

/-- With an intensity of 2 and ranges from 1 to 3 there are `8π` false alarms. -/
example : ampIntegral ⟨1, 2, 3, 1, 0⟩ = 8 * π := by
  unfold ampIntegral
  norm_num
  ring

/-! ### C57 for the Victoria Park filter -/

/-- **C57**, innovation of the Victoria Park filter: as for the range-bearing filter, and the difference of the diameters is not tested. -/
theorem C57_innovation_vp (t : Thr) (zexp zact : Fin 3 → ℝ) : ∃ r N, (∀ fuel, N ≤ fuel → innovationVP t fuel zexp zact = some r) ∧
    match r with
    | some v => v 0 = zact 0 - zexp 0 ∧ v 2 = zact 2 - zexp 2 ∧ MeasProps.IsWrapOf (v 1) (zact 1 - zexp 1) ∧ (0 < t.range → |v 0| ≤ t.range) ∧ (0 < t.bearing → |v 1| ≤ t.bearing)
    | none => (0 < t.range ∧ t.range < |zact 0 - zexp 0|) ∨ (0 < t.bearing ∧ ∃ b, MeasProps.IsWrapOf b (zact 1 - zexp 1) ∧ t.bearing < |b|) := by
  obtain ⟨c, N, hN, h1, h2, -, hk⟩ := wrap_spec (zact 1 - zexp 1)
  by_cases hr : 0 < t.range ∧ t.range < |zact 0 - zexp 0|
  · exact ⟨none, N, fun fuel hf => by simp only [innovationVP, hN fuel hf, Option.map_some, if_pos hr], Or.inl hr⟩
  · by_cases hb : 0 < t.bearing ∧ t.bearing < |c|
    · refine ⟨none, N, fun fuel hf => ?_, Or.inr ⟨hb.1, c, ⟨h2, h1, hk⟩, hb.2⟩⟩
      simp only [innovationVP, if_neg hr, hN fuel hf, Option.map_some, if_pos hb]
    · refine ⟨some ![zact 0 - zexp 0, c, zact 2 - zexp 2], N, fun fuel hf => ?_, rfl, rfl, ⟨h2, h1, hk⟩, ?_, ?_⟩
      · simp only [innovationVP, if_neg hr, hN fuel hf, Option.map_some, if_neg hb]
      · intro h; by_contra hcon; exact hr ⟨h, not_le.1 hcon⟩
      · intro h; by_contra hcon; exact hb ⟨h, not_le.1 hcon⟩

end AmpProps
end RFS
