import Verif.Model.PHD
import Verif.Model.RFSLikelihood

/-!
Model of the particle weights of `rfs::RBPHDFilter`: `importanceWeighting` (include/RBPHDFilter.hpp 730-822), the likelihood table of `rfsMeasurementLikelihood` (lines 824-866), the cluster process
weight inside `updateMap` (lines 571-581, 645-670), and the choice between them in `update` (lines 484-497).

Exact real arithmetic; `std::numeric_limits<double>::denorm_min()` is a positive parameter `tiny`. Members of `config` that the constructor does not set (lines 371-383) are `Option`s; reading one that was
never set is undefined behaviour (`none`), as are the undefined outcomes of `rfsMeasurementLikelihood`. `sortByWeight` always sorts here: `setWeight` has cleared `isSorted_` of every map that is not empty. The
flag returned by `measure` is ignored by the code. The number of Gaussians is below `2^31`, so that a negative `importanceWeightingEvalPointCount_`, compared as unsigned, exceeds it.
-/

namespace RFS
namespace PHDW
open PHD RFSLik

variable {T : Type*} {nZ : Nat}

/-- Members of `config` read here, lines 114-145: `importanceWeightingEvalPointCount_`, `importanceWeightingEvalPointGuassianWeight_`, `importanceWeightingMeasurementLikelihoodMDThreshold_`,
`useClusterProcess_`. -/
structure WCfg where
  count : Int
  minW : Option ℝ
  mdThr : ℝ
  cluster : Option Bool

/-- The values set by the constructor, lines 371-383. -/
noncomputable def defaultCfg : WCfg := ⟨8, none, 3, none⟩

/-- The models at the pose of the particle: `pd` is `probabilityOfDetection` (its value only), `dens a b` is `evalGaussianLikelihood` of landmark `a` at the mean of `b`, `zlik l z` is the likelihood of
measurement `z` under the predicted measurement of `l` without covariance and the squared Mahalanobis distance, `clut` is `clutterIntensity`, `integral` is `clutterIntensityIntegral`. -/
structure WEnv (T : Type*) (nZ : Nat) where
  pd : T → ℝ
  dens : T → T → ℝ
  zlik : T → Fin nZ → ℝ × ℝ
  clut : Fin nZ → ℝ
  integral : ℝ

/-- `nEvalPoints`, line 739. -/
def nEval (count : Int) (nM : Nat) : Nat := if count < 0 ∨ (nM : Int) < count then nM else count.toNat

/-- The loop of lines 749-763 over the sorted Gaussians: `k` evaluation points have been found, `n` is `nEvalPoints`. -/
noncomputable def pick (minW : ℝ) (pd : T → ℝ) (n : Nat) : Nat → List (Comp T ℝ) → List (Comp T ℝ)
  | _, [] => []
  | k, c :: cs =>
    if c.w < minW then []
    else if 0 < pd c.lm then c :: (if n ≤ k + 1 then [] else pick minW pd n (k + 1) cs)
    else if n ≤ k then [] else pick minW pd n k cs

/-- Lines 767-775, with `f` the weight or the previous weight. -/
noncomputable def weightSum (f : Comp T ℝ → ℝ) (g : List (Comp T ℝ)) : ℝ := g.foldl (fun a c => a + f c) 0

/-- Lines 787-799 for one evaluation point. -/
noncomputable def intensityAt (env : WEnv T nZ) (tiny : ℝ) (f : Comp T ℝ → ℝ) (g : List (Comp T ℝ)) (e : T) : ℝ := g.foldl (fun a c => a + f c * env.dens c.lm e) tiny

/-- Lines 778-802. -/
noncomputable def intensityProd (env : WEnv T nZ) (tiny : ℝ) (f : Comp T ℝ → ℝ) (g pts : List (Comp T ℝ)) : ℝ := pts.foldl (fun a e => a * intensityAt env tiny f g e.lm) 1

/-- The likelihood table, lines 846-866. -/
noncomputable def lTab (env : WEnv T nZ) (mdThr : ℝ) (pts : List (Comp T ℝ)) (m : Fin pts.length) (z : Fin nZ) : ℝ :=
  if mdThr * mdThr < (env.zlik pts[m].lm z).2 then 0 else (env.zlik pts[m].lm z).1 * env.pd pts[m].lm

/-- `importanceWeighting`, lines 730-822, for a particle with map `map` after the update and weight `w`: the new weight. -/
noncomputable def importance (cfg : WCfg) (env : WEnv T nZ) (tiny : ℝ) (srt : List (Comp T ℝ) → List (Comp T ℝ)) (murty : ∀ n, List (Fin n) → List (Fin nZ) → Option ℝ) (fuel ncc : Nat)
    (lab : ∀ n, Fin n ⊕ Fin nZ → Nat) (map : List (Comp T ℝ)) (w : ℝ) : Option ℝ :=
  if nEval cfg.count map.length = 0 then some tiny
  else
    cfg.minW.bind fun minW =>
      let g := srt map
      let pts := pick minW env.pd (nEval cfg.count map.length) 0 g
      (rfsLik (lTab env cfg.mdThr pts) (fun m => env.pd pts[m].lm) env.clut env.integral (murty _) fuel ncc (lab _)).map fun l =>
        l * intensityProd env tiny Comp.wp g pts / intensityProd env tiny Comp.w g pts * Real.exp (weightSum Comp.w g - weightSum Comp.wp g) * w

/-- The cluster process weight, lines 571-581 and 645-670 of `updateMap`, for a particle with map `map` before the update and weight `w`. -/
noncomputable def cluster {Z : Type*} (s : Sensor T Z ℝ) (thr tiny : ℝ) (map : List (Comp T ℝ)) (Zs : List Z) (w : ℝ) : ℝ :=
  if map.length = 0 then w
  else Real.exp (map.foldl (fun a c => a + c.w) tiny) * Zs.foldl (fun a z => a * colSum s thr map Zs.length z) 1 * w

/-- The weight of a particle after `updateMap` and lines 484-497 of `update`: `map` is the map before the update, `s` and `env` are the models at the particle's pose. -/
noncomputable def newWeight {Z : Type*} (cfg : WCfg) (s : Sensor T Z ℝ) (thr birthW : ℝ) (Zs : List Z) (env : WEnv T Zs.length) (tiny : ℝ) (srt : List (Comp T ℝ) → List (Comp T ℝ))
    (murty : ∀ n, List (Fin n) → List (Fin Zs.length) → Option ℝ) (fuel ncc : Nat) (lab : ∀ n, Fin n ⊕ Fin Zs.length → Nat) (map : List (Comp T ℝ)) (w : ℝ) : Option ℝ :=
  cfg.cluster.bind fun b =>
    if b then some (cluster s thr tiny map Zs w)
    else importance cfg env tiny srt murty fuel ncc lab (updateMap s thr birthW map Zs).map w

end PHDW
end RFS
