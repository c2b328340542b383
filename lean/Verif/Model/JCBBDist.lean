import Verif.Model.JCBB
import Mathlib.LinearAlgebra.Matrix.NonsingularInverse
import Mathlib.Data.Matrix.Block
import Mathlib.Data.Real.Basic
import Mathlib.Data.Fintype.Sum

/-!
Model of the joint Mahalanobis distance of `rfs::JCBB` (include/JCBB.hpp 381-483 and 505-510), which `Verif.Model.JCBB` leaves open.

Simplifications: exact real arithmetic; `isZero` of the pose covariance is equality with zero; the dense covariance of the estimate is
given by its blocks. Stacked vectors and matrices are indexed by `Ix d k`, the components of `k` stacked measurements of dimension `d`.
A product of matrices of different sizes (an assertion of Eigen, undefined when assertions are off) and the inverse of a singular matrix
are the outcome `none`.
-/

namespace RFS
namespace JCBB

/-- The components of `k` stacked vectors of dimension `d`; the last vector is on the right. -/
def Ix (d : Nat) : Nat → Type
  | 0 => Empty
  | k + 1 => Ix d k ⊕ Fin d

instance Ix.fintype (d : Nat) : (k : Nat) → Fintype (Ix d k)
  | 0 => inferInstanceAs (Fintype Empty)
  | k + 1 => letI := Ix.fintype d k; inferInstanceAs (Fintype (Ix d k ⊕ Fin d))

instance Ix.decEq (d : Nat) : (k : Nat) → DecidableEq (Ix d k)
  | 0 => inferInstanceAs (DecidableEq Empty)
  | k + 1 => letI := Ix.decEq d k; inferInstanceAs (DecidableEq (Ix d k ⊕ Fin d))

/-- The blocks of the covariance of the estimate: pose, pose with landmark, landmark with pose, landmark with landmark. -/
structure Est (r l : Nat) where
  rr : Matrix (Fin r) (Fin r) ℝ
  rm : Nat → Matrix (Fin r) (Fin l) ℝ
  mr : Nat → Matrix (Fin l) (Fin r) ℝ
  mm : Nat → Nat → Matrix (Fin l) (Fin l) ℝ

/-- What the constructor is given (lines 261-285) and what `calcExpectedMeasurements` computes (321-341): measurements, expected
measurements and Jacobians by landmark, noise `Q` (386), covariances of pose and landmarks, and `estCovDense_` if not NULL. -/
structure Env (d r l : Nat) where
  z : Nat → Fin d → ℝ
  zp : Nat → Fin d → ℝ
  Hp : Nat → Matrix (Fin d) (Fin r) ℝ
  Hl : Nat → Matrix (Fin d) (Fin l) ℝ
  Q : Matrix (Fin d) (Fin d) ℝ
  P : Matrix (Fin r) (Fin r) ℝ
  Pm : Nat → Matrix (Fin l) (Fin l) ℝ
  dense : Option (Est r l)

variable {d r l : Nat}

/-- `isRobotPoseHasUncertainty || !isEstCovBlockDiag_`, lines 399, 424-437 and 445. -/
def Env.unc (e : Env d r l) : Prop := e.dense ≠ none ∨ e.P ≠ 0

/-- The block of `W` for the landmark `j` used before, lines 403-414 and 425-427: in the second case it does not depend on `j`. -/
def cross (e : Env d r l) (m j : Nat) : Matrix (Fin d) (Fin d) ℝ :=
  match e.dense with
  | some s => (e.Hp m * s.rr + e.Hl m * s.mr m) * (e.Hp j).transpose + (e.Hp m * s.rm j + e.Hl m * s.mm m j) * (e.Hl j).transpose + e.Q
  | none => e.Hp m * e.P * (e.Hp m).transpose + e.Q

open Classical in
/-- `C_current`, lines 416-417, 429-430 and 435. -/
noncomputable def cur (e : Env d r l) (m : Nat) : Matrix (Fin d) (Fin d) ℝ :=
  match e.dense with
  | some s => e.Hp m * s.rr * (e.Hp m).transpose + e.Hl m * s.mm m m * (e.Hl m).transpose + e.Q
  | none =>
    if e.P = 0 then e.Hl m * e.Pm m * (e.Hl m).transpose + e.Q
    else e.Hp m * e.P * (e.Hp m).transpose + e.Hl m * e.Pm m * (e.Hl m).transpose + e.Q

/-- `W`, lines 394-395, 408-414 and 425-427; the landmarks used are listed latest first and stacked oldest first. -/
def Wrow (e : Env d r l) (m : Nat) : List Nat → (c : Nat) → Matrix (Fin d) (Ix d c) ℝ
  | _, 0 => fun _ x => x.elim
  | [], _ + 1 => 0
  | j :: js, c + 1 => fun a => Sum.elim (Wrow e m js c a) (cross e m j a)

/-- Vectors listed latest first, stacked oldest first. -/
def vec : List (Fin d → ℝ) → (c : Nat) → Ix d c → ℝ
  | _, 0 => fun x => x.elim
  | [], _ + 1 => 0
  | v :: vs, c + 1 => Sum.elim (vec vs c) v

/-- `innov_` (by measurement, latest first), `C_inverse_` and `dist_mahalanobis2_` of a node. -/
structure Nd (d : Nat) where
  innov : List (Fin d → ℝ)
  inv : (c : Nat) × Matrix (Ix d c) (Ix d c) ℝ
  d2 : ℝ

open Classical in
/-- `inverse()`. -/
noncomputable def inv? {ι : Type} [Fintype ι] [DecidableEq ι] (A : Matrix ι ι ℝ) : Option (Matrix ι ι ℝ) := if A.det = 0 then none else some A⁻¹

open Classical in
/-- The distance and the node of a landmark `m` for measurement `zi` below node `nd`, lines 382-483; `us` is `used_lmk_indices`. -/
noncomputable def extend (e : Env d r l) (us : List Nat) (zi m : Nat) (nd : Nd d) : Option (Nd d) :=
  let v := e.z zi - e.zp m
  if us ≠ [] ∧ e.unc then
    if nd.innov.length = us.length ∧ nd.inv.1 = us.length then
      let W := Wrow e m us nd.inv.1
      let x := vec nd.innov nd.inv.1
      (inv? (cur e m - W * nd.inv.2 * W.transpose)).map fun N =>
        let L := -N * W * nd.inv.2
        let M := L.transpose * N⁻¹ * L
        ⟨v :: nd.innov, ⟨nd.inv.1 + 1, Matrix.fromBlocks (nd.inv.2 + M) L.transpose L N⟩,
          nd.d2 + dotProduct x (M.mulVec x) + 2 * dotProduct v (L.mulVec x) + dotProduct v (N.mulVec v)⟩
    else none
  else
    (inv? (cur e m)).map fun Ci =>
      ⟨v :: nd.innov, if us = [] then ⟨1, Matrix.fromBlocks 0 0 0 Ci⟩ else ⟨0, 0⟩, nd.d2 + dotProduct v (Ci.mulVec v)⟩

/-- The node of a path: the root (line 289), an outlier (505-510) or a landmark. -/
noncomputable def node (e : Env d r l) : Path → Option (Nd d)
  | [] => some ⟨[], ⟨0, 0⟩, 0⟩
  | none :: p => node e p
  | some m :: p => (node e p).bind (extend e (used p) p.length m)

/-- `nDof` when a landmark is tried below the node of path `p`, line 464. -/
def dof (d : Nat) (p : Path) : Nat := d * (1 + (used p).length)

end JCBB
end RFS
