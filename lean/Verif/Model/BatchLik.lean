import Verif.Model.RFSLikelihood

/-!
Model of the measurement likelihoods of the batch optimisers: `RFSPSOSLAM::rfsMeasurementLikelihood(i, k)` (include/RFSPSOSLAM.hpp 736-941) and
`RFSCeresSLAM::rfsMeasurementLogLikelihood` (include/RFSCeresSLAM.hpp 868-1185).

Exact arithmetic. The Gaussian likelihoods and their derivatives are given (`RandomVec::evalGaussianLikelihood`, `evalGaussianLogLikelihood`: C81, C117). One coordinate
of the pose gradient and one coordinate of each landmark gradient are modelled, the others are treated alike.
-/

namespace RFS
namespace BatchLik
open Partition Murty
open RFSLik (logEntry)

variable {nM nZ : Nat}

/-! ### RFSPSOSLAM -/

/-- Lines 804-807. -/
noncomputable def psoEntry (g pd thr : ℝ) : ℝ := if g * pd < thr then 0 else g * pd

/-- `partition_likelihood`, lines 819-934: Murty's algorithm for every partition with an entry. `murtyBlock` also models lines 849-901, which are those of `RBPHDFilter`. -/
noncomputable def psoPart (Q : ∀ n, PQ ℝ n) (big : ℝ) (fuel : Nat) (L : Fin nM → Fin nZ → ℝ) (pd : Fin nM → ℝ) (clut : Fin nZ → ℝ) (o : Obj nM nZ) (p : Nat) : Option ℝ :=
  let part := (getPartition L o p true).1
  if part.flag = false then some ((part.rows.map pd).prod * (part.cols.map clut).prod)
  else RFSLik.murtyBlock Q big fuel L pd clut part.rows part.cols

/-- `RFSPSOSLAM::rfsMeasurementLikelihood(i, k)`, lines 736-941, from the table on; lines 775-781 return before the division by the integral. `nM`: number of landmarks in view. -/
noncomputable def psoLik (Q : ∀ n, PQ ℝ n) (big : ℝ) (fuel : Nat) (L : Fin nM → Fin nZ → ℝ) (pd : Fin nM → ℝ) (clut : Fin nZ → ℝ) (integral : ℝ) (ncc : Nat)
    (lab : Fin nM ⊕ Fin nZ → Nat) : Option ℝ :=
  if nM = 0 then some (∏ z, clut z)
  else (partition ncc lab none).bind fun o => (RFSLik.prodLik (psoPart Q big fuel L pd clut o) o.nP).map fun l => l / integral

/-! ### RFSCeresSLAM -/

/-- `lmInFovIdx`, lines 886-911: the landmarks that can be detected. `pd`: probability of detection of each landmark. -/
noncomputable def inView (pd : List ℝ) : List Nat := (List.range pd.length).filter fun m => decide (0 < pd.getD m 0)

/-- `clutter[n]`, lines 915-927. `da`: the known association of the measurement; `ci`: clutter intensity. -/
noncomputable def ceresClutter (da : Int) (ci : ℝ) : ℝ := if da = -1 then (logEntry ci).unbotD 0 else if da = -2 then 0 else -1000

/-- `L[m][n]`, lines 966-980. `m`: place in the list of landmarks in view (not the number of the landmark); `g`: logarithm of the Gaussian likelihood. -/
noncomputable def ceresEntry (da : Int) (m : Nat) (g pd clut thr : ℝ) : ℝ :=
  if da ≠ m ∧ da ≠ -1 then -1000
  else
    let x := g + Real.log pd - Real.log (1 - pd) - clut
    if x < thr then -1000 else x

/-- What is stored in `landmark_gradients` and `pose_gradients` for a pair, lines 982-988: nothing after the `continue` of line 969. -/
def ceresStore {K : Type*} (da : Int) (m : Nat) (d : K) : Option K := if da ≠ m ∧ da ≠ -1 then none else some d

section
variable {K : Type*} [Field K] [LinearOrder K] [IsStrictOrderedRing K]

/-- Calls of `findNextBest` in the loop of lines 1099-1104: at most `k` more results, up to the first one below `bot`. -/
def more {n : Nat} (Q : PQ K n) (prm : Prm K n) (bot : K) : Nat → St K n Q → Option (List ((Fin n → Fin n) × K))
  | 0, _ => some []
  | k + 1, st =>
    match findNextBest Q prm st with
    | (.ub, _) => none
    | (.noMore, _) => some []
    | (.found _ a s, st') => if s < bot then some [] else (more Q prm bot k st').map ((a, s) :: ·)

/-- The results used for a partition, lines 1080-1104: the first one, and at most 200 more. The matrix has zeros for missed detections and for clutter (lines 1051-1079).
`none`: undefined behaviour. -/
def results {nR nC : Nat} (Q : PQ K (nR + nC)) (Lg : Fin nR → Fin nC → K) (bot big : K) (fuel : Nat) :
    Option (((Fin (nR + nC) → Fin (nR + nC)) × K) × List ((Fin (nR + nC) → Fin (nR + nC)) × K)) :=
  let prm := Prm.make (MurtyLik.extMatrix Lg (fun _ => 0) (fun _ => 0) bot) big (some (nR, nC)) fuel
  match findNextBest Q prm (start Q) with
  | (.found _ a s, st) => (more Q prm bot 200 st).map fun l => ((a, s), l)
  | _ => none

variable {nR nC : Nat}

/-- A stored gradient, `.at(...)`: `none` for an exception. `d`: the gradients stored for the pairs of the partition. -/
def look (d : Fin nR → Fin nC → Option K) (a : Fin (nR + nC) → Fin (nR + nC)) (r : Fin nR) : Option K :=
  if h : (a (Fin.castAdd nC r)).val < nC then d r ⟨_, h⟩ else some 0

/-- Difference of the gradients of row `r` under two assignments, lines 1111-1126. -/
def lookDiff (d : Fin nR → Fin nC → Option K) (a0 a : Fin (nR + nC) → Fin (nR + nC)) (r : Fin nR) : Option K :=
  if a (Fin.castAdd nC r) = a0 (Fin.castAdd nC r) then some 0 else (look d a r).bind fun x => (look d a0 r).map fun y => x - y

/-- All the differences of one assignment; `none`: exception. -/
def rowDiffs (d : Fin nR → Fin nC → Option K) (a0 a : Fin (nR + nC) → Fin (nR + nC)) : Option (Fin nR → K) :=
  if ∀ r, (lookDiff d a0 a r).isSome then some fun r => (lookDiff d a0 a r).getD 0 else none

/-- The differences of all the assignments after the first, with their scores. -/
def allDiffs (d : Fin nR → Fin nC → Option K) (a0 : Fin (nR + nC) → Fin (nR + nC)) : List ((Fin (nR + nC) → Fin (nR + nC)) × K) → Option (List ((Fin nR → K) × K))
  | [] => some []
  | (a, s) :: l => (rowDiffs d a0 a).bind fun x => (allDiffs d a0 l).map ((x, s) :: ·)

/-- The gradients of the first assignment, lines 1138-1149: only if it is better than `bot`. -/
def firsts (d : Fin nR → Fin nC → Option K) (a0 : Fin (nR + nC) → Fin (nR + nC)) (s0 bot : K) : Option (Fin nR → K) :=
  if s0 ≤ bot then some fun _ => 0
  else if ∀ r, (look d a0 r).isSome then some fun r => (look d a0 r).getD 0 else none

end

/-- Gradient of the landmark at row `r` of the partition, lines 1111-1149, starting from 0: corrections, divided by `partition_correction_component`, plus the gradient of the
first assignment. -/
noncomputable def rowGrad (s0 : ℝ) (f : ℝ) (ds : List (ℝ × ℝ)) : ℝ :=
  (ds.map fun x => x.1 * Real.exp (x.2 - s0)).sum / (1 + (ds.map fun x => Real.exp (x.2 - s0)).sum) + f

/-- `partition_pose_gradient`, lines 1111-1149: the corrections are not divided. -/
noncomputable def poseGrad {nR : Nat} (s0 : ℝ) (f : Fin nR → ℝ) (ds : List ((Fin nR → ℝ) × ℝ)) : ℝ :=
  (ds.map fun x => (∑ r, x.1 r) * Real.exp (x.2 - s0)).sum + ∑ r, f r

/-- Value and gradients. `seg`: segment `m` of `landmark_gradient`. -/
structure Out where
  val : ℝ
  seg : Nat → ℝ
  pose : ℝ

/-- Value of a partition without its first part (lines 1024-1030), lines 1089-1107 and 1154. -/
noncomputable def partVal (s0 : ℝ) (l : List ℝ) : ℝ := s0 + Real.log (1 + (l.map fun s => Real.exp (s - s0)).sum)

/-- A partition with entries, lines 1037-1175. `rows`, `cols`: `rowIdx`, `colIdx`; `base`: the value so far. The segment written for row `r` is that of the place of the landmark
in the list of landmarks in view (`rowIdx[r]`, lines 1127, 1135, 1145). A segment is written for one partition only, so that lines 1127-1145 start from 0. -/
noncomputable def ceresBlock (Q : ∀ n, PQ ℝ n) (big : ℝ) (fuel : Nat) (Lg : Fin nM → Fin nZ → ℝ) (dl dp : Fin nM → Fin nZ → Option ℝ) (rows : List (Fin nM)) (cols : List (Fin nZ))
    (base : ℝ) (acc : Out) : Option Out :=
  (results (Q (rows.length + cols.length)) (fun i j => max (Lg (rows.get i) (cols.get j)) (-1000)) (-1000) big fuel).bind fun res =>
  (allDiffs (fun i j => dl (rows.get i) (cols.get j)) res.1.1 res.2).bind fun ls =>
  (allDiffs (fun i j => dp (rows.get i) (cols.get j)) res.1.1 res.2).bind fun ps =>
  (firsts (fun i j => dl (rows.get i) (cols.get j)) res.1.1 res.1.2 (-1000)).bind fun fl =>
  (firsts (fun i j => dp (rows.get i) (cols.get j)) res.1.1 res.1.2 (-1000)).map fun fp =>
  { val := acc.val + (base + partVal res.1.2 (res.2.map Prod.snd))
    seg := fun m => acc.seg m + ∑ i : Fin rows.length, if (rows.get i).val = m then rowGrad res.1.2 (fl i) (ls.map fun x => (x.1 i, x.2)) else 0
    pose := acc.pose + poseGrad res.1.2 fp ps }

/-- One partition, lines 1001-1175. `dl`, `dp`: stored gradients for landmarks and pose. -/
noncomputable def ceresPart (Q : ∀ n, PQ ℝ n) (big : ℝ) (fuel : Nat) (Lg : Fin nM → Fin nZ → ℝ) (dl dp : Fin nM → Fin nZ → Option ℝ) (pd : Fin nM → ℝ) (clut : Fin nZ → ℝ)
    (o : Obj nM nZ) (acc : Out) (p : Nat) : Option Out :=
  let part := (getPartition Lg o p true).1
  let base := (part.rows.map fun r => (logEntry (pd r)).unbotD 0).sum + (part.cols.map fun c => max (clut c) (-1000)).sum
  if part.flag = false then some { acc with val := acc.val + base } else ceresBlock Q big fuel Lg dl dp part.rows part.cols base acc

/-- `RFSCeresSLAM::rfsMeasurementLogLikelihood`, lines 868-1185, from the table on. -/
noncomputable def ceresLogLik (Q : ∀ n, PQ ℝ n) (big : ℝ) (fuel : Nat) (Lg : Fin nM → Fin nZ → ℝ) (dl dp : Fin nM → Fin nZ → Option ℝ) (pd : Fin nM → ℝ) (clut : Fin nZ → ℝ)
    (integral : ℝ) (ncc : Nat) (lab : Fin nM ⊕ Fin nZ → Nat) : Option Out :=
  if nM = 0 then some ⟨(∑ z, clut z) - integral, fun _ => 0, 0⟩
  else (partition ncc lab none).bind fun o =>
    ((List.range o.nP).foldlM (ceresPart Q big fuel Lg dl dp pd clut o) ⟨0, fun _ => 0, 0⟩).map fun r => { r with val := r.val - integral }

end BatchLik
end RFS
