import Verif.Model.MeasModels
import Mathlib.Analysis.SpecialFunctions.Exp

/-!
Model of what `MeasurementModel_RngBrg_amplitude` (src/MeasurementModel_RngBrg_amplitude.cpp) and `KalmanFilter_VictoriaPark` (include/KalmanFilter_VictoriaPark.hpp) do differently from
the range-bearing model and its filter.
-/

namespace RFS
namespace Meas
open Real

/-- `clutterIntensity`, src/MeasurementModel_RngBrg_amplitude.cpp 169-173, for a measurement of amplitude `a`. -/
noncomputable def ampClutter (cfg : Cfg) (a : ℝ) : ℝ := cfg.clutter * exp (-a * (7777 / 10000)) * (7777 / 10000)

/-- `clutterIntensityIntegral`, src/MeasurementModel_RngBrg_amplitude.cpp 176-179. -/
noncomputable def ampIntegral (cfg : Cfg) : ℝ := cfg.clutter * (2 * π * (cfg.rMax - cfg.rMin))

/-- The amplitude of a simulated false alarm, src/rbphdslam2dSim_amplitude.cpp 366: `e` is a draw of the unit exponential distribution (68-69). -/
noncomputable def simAmplitude (e : ℝ) : ℝ := e / (7777 / 10000)

/-- `KalmanFilter_VictoriaPark::calculateInnovation`, include/KalmanFilter_VictoriaPark.hpp 56-75. -/
noncomputable def innovationVP (t : Thr) (fuel : Nat) (zexp zact : Fin 3 → ℝ) : Option (Option (Fin 3 → ℝ)) :=
  (wrap fuel (zact 1 - zexp 1)).map fun b =>
    if 0 < t.range ∧ t.range < |zact 0 - zexp 0| then none
    else if 0 < t.bearing ∧ t.bearing < |b| then none
    else some ![zact 0 - zexp 0, b, zact 2 - zexp 2]

end Meas
end RFS
