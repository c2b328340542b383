import Mathlib.Analysis.SpecialFunctions.Trigonometric.Arctan
import Mathlib.Algebra.Order.Floor.Ring
import Verif.Model.MeasModels

/-!
Model of the detection probability and the clutter intensity of `MeasurementModel_VictoriaPark` (src/MeasurementModel_VictoriaPark.cpp 153-291).

Exact real arithmetic. `none` as the result of `beams`, `pd2`, `fovArea` is undefined behaviour (an index outside of a vector); for `pd` the outer `none` is a loop that has not ended.
`atan(x / 0)` is modelled as `atan 0`; the theorems assume a positive range.
-/

namespace RFS
namespace VPark
open Real Meas

/-- `config`, include/MeasurementModel_VictoriaPark.hpp 136-145. -/
structure Cfg where
  table : List ℝ
  clutterN : ℝ
  rMax : ℝ
  rMin : ℝ
  bMin : ℝ
  bMax : ℝ
  buf : ℝ

/-- `while(b>=720)b-=720;`, src/MeasurementModel_VictoriaPark.cpp 239 and 241. -/
def down720 (b : Int) : Int := if 720 ≤ b then down720 (b - 720) else b
termination_by b.toNat
decreasing_by omega

/-- `while(b<0)b+=720;`, src/MeasurementModel_VictoriaPark.cpp 240 and 242. -/
def up720 (b : Int) : Int := if b < 0 then up720 (b + 720) else b
termination_by (-b).toNat
decreasing_by omega

/-- The loop over the beams, src/MeasurementModel_VictoriaPark.cpp 249-253; `none`: the index is outside of the scan. The number of beams is at most 720 (the fuel is never used up, `beams_spec`). -/
noncomputable def beams (scan : List ℝ) (minrange : ℝ) (maxb : Int) : Nat → Int → Option Nat
  | 0, _ => none
  | fuel + 1, b =>
    if b = maxb then some 0
    else (scan[b.toNat]?).bind fun s => (beams scan minrange maxb fuel ((b + 1) % 720)).map fun n => if minrange < s ∨ s = 0 then n + 1 else n

/-- `gamma`, src/MeasurementModel_VictoriaPark.cpp 224-225. -/
noncomputable def gamma (r d : ℝ) : ℝ := arctan (d / 2 / r)

/-- `maxNumPoints`, src/MeasurementModel_VictoriaPark.cpp 227. -/
noncomputable def maxPts (r d : ℝ) : Int := ⌊2 * gamma r d * 720 / (2 * π)⌋

/-- The number of beams that are counted, src/MeasurementModel_VictoriaPark.cpp 236-254. -/
noncomputable def numPts (scan : List ℝ) (r b d : ℝ) : Option Nat :=
  let minb0 : Int := ⌈(b - gamma r d) * 720 / (2 * π)⌉
  let maxb0 := minb0 + maxPts r d
  let minb := up720 (down720 minb0)
  let maxb := up720 (down720 maxb0)
  let minrange := r - d / 2 - 6 * (3 / 100)
  if 0 < Int.tmod (maxb - minb + 720) 720 then beams scan minrange maxb 721 minb else some 0

/-- `probabilityOfDetection2`, src/MeasurementModel_VictoriaPark.cpp 202-265, as a function of the expected measurement (range, bearing, diameter): the probability and the flag
`isCloseToSensingLimit`. The comparison of `size()` with a negative number is an unsigned one, hence false. -/
noncomputable def pd2 (cfg : Cfg) (scan : List ℝ) (r b d : ℝ) : Option (ℝ × Bool) :=
  if cfg.bMax < b ∨ b < cfg.bMin ∨ r < cfg.rMin ∨ cfg.rMax < r then some (0, false)
  else if 0 ≤ maxPts r d ∧ cfg.table[(maxPts r d).toNat]? = some 0 then some (0, false)
  else
    let close : Bool := decide (0 ≤ maxPts r d ∧ ∃ p ∈ cfg.table[(maxPts r d).toNat]?, p < cfg.buf)
    (numPts scan r b d).bind fun n =>
      let i := if cfg.table.length ≤ n then cfg.table.length - 1 else n
      (cfg.table[i]?).map fun p => (p, if p = 0 then false else close)

/-- The mean of the expected measurement (`Meas.vp`), src/MeasurementModel_VictoriaPark.cpp 104-151. -/
noncomputable def mean (fuel : Nat) (x m : Fin 3 → ℝ) : Option (Fin 3 → ℝ) :=
  (wrap fuel (atan2 (m 1 - x 1) (m 0 - x 0) - (x 2 - π / 2))).map fun b => ![√((m 0 - x 0) ^ 2 + (m 1 - x 1) ^ 2), b, m 2]

/-- `probabilityOfDetection2` with its arguments. The outer `none` is an unfinished loop. -/
noncomputable def pd2At (cfg : Cfg) (scan : List ℝ) (fuel : Nat) (x m : Fin 3 → ℝ) : Option (Option (ℝ × Bool)) :=
  (mean fuel x m).map fun z => pd2 cfg scan (z 0) (z 1) (z 2)

/-- The displacements of the probes, src/MeasurementModel_VictoriaPark.cpp 182-189: `+i*2*d` and `-i*2*d` for `i = 1, 2, …` while `(i-1)*(2*d) < std`. -/
noncomputable def offsets (d std : ℝ) : Nat → Nat → Option (List ℝ)
  | 0, _ => none
  | fuel + 1, i => if ((i : ℝ) - 1) * (2 * d) < std then (offsets d std fuel (i + 1)).map fun l => i * 2 * d :: -(i * 2 * d) :: l else some []

/-- `angle`, src/MeasurementModel_VictoriaPark.cpp 163-166. -/
noncomputable def probeAngle (x z : Fin 3 → ℝ) : ℝ := atan2 (z 1) (z 0) + x 2

/-- `perp_direction`, src/MeasurementModel_VictoriaPark.cpp 169. -/
noncomputable def perp (a : ℝ) : Fin 2 → ℝ := ![-sin a, cos a]

/-- `std`, src/MeasurementModel_VictoriaPark.cpp 171-173. -/
noncomputable def spread (a : ℝ) (S : Matrix (Fin 2) (Fin 2) ℝ) : ℝ := max (3 * √(perp a ⬝ᵥ S.mulVec (perp a))) (1 / 5)

/-- A displaced landmark, src/MeasurementModel_VictoriaPark.cpp 183 and 186. -/
noncomputable def shifted (m : Fin 3 → ℝ) (a o : ℝ) : Fin 3 → ℝ := ![m 0 + o * perp a 0, m 1 + o * perp a 1, m 2]

/-- `*std::min_element`. -/
noncomputable def minEl : List ℝ → ℝ
  | [] => 0
  | a :: l => l.foldl min a

/-- `*std::max_element`. -/
noncomputable def maxEl : List ℝ → ℝ
  | [] => 0
  | a :: l => l.foldl max a

/-- `probabilityOfDetection`, src/MeasurementModel_VictoriaPark.cpp 153-199: the greatest value at the probes and the landmark; the flag is that of the last call (the landmark itself) unless
there are both zero and positive values. The outer `none` is an unfinished loop, the inner one undefined behaviour. -/
noncomputable def pd (cfg : Cfg) (scan : List ℝ) (fuel : Nat) (x m : Fin 3 → ℝ) (S : Matrix (Fin 2) (Fin 2) ℝ) : Option (Option (ℝ × Bool)) :=
  (mean fuel x m).bind fun z =>
    let a := probeAngle x z
    (offsets (m 2) (spread a S) fuel 1).bind fun os =>
      ((os.map (shifted m a) ++ [m]).mapM (pd2At cfg scan fuel x)).map fun rs =>
        (rs.mapM id).map fun vs =>
          let ps := vs.map Prod.fst
          (maxEl ps, if minEl ps = 0 ∧ 0 < maxEl ps then true else ((vs.getLast?).map Prod.snd).getD false)

/-! ### Clutter -/

/-- `FoVArea` of `setLaserScan`, src/MeasurementModel_VictoriaPark.cpp 267-277; `none`: the scan is empty (`laserscan_[0]`). -/
noncomputable def fovArea (scan : List ℝ) : Option ℝ :=
  (scan[0]?).bind fun a => (scan[scan.length - 1]?).map fun z =>
    (((scan.zip scan.tail).foldl (fun s p => s + p.2 * p.1) 0) + a * z) * (sin (π / 360) / 2)

/-- `clutterIntensity_`, src/MeasurementModel_VictoriaPark.cpp 279 and 283-286; the inner `none` is a division by zero. -/
noncomputable def clutter (cfg : Cfg) (scan : List ℝ) : Option (Option ℝ) :=
  (fovArea scan).map fun f => if f = 0 then none else some (cfg.clutterN / f)

/-- `clutterIntensityIntegral`, src/MeasurementModel_VictoriaPark.cpp 288-291. -/
def clutterIntegral (cfg : Cfg) : ℝ := cfg.clutterN

end VPark
end RFS
