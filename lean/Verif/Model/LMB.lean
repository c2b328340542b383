import Verif.Model.CBMeMBer

/-!
Model of `RBLMBFilter::updateMap` and `addBirthTracks` (include/RBLMBFilter.hpp 302-332, 516-884) for one particle.

Exact real arithmetic; `log(0)` is minus infinity. Measurement model and Kalman filter are the parameters of `Verif.Model.CBMeMBer`. A division by zero
(NaN or inf in C++), an access outside a container and a loop without end are the outcome `none`. The assignments Murty's algorithm returns for
partitions of more than 8 rows and columns (lines 744-752), with the exponentials of their log-likelihoods, are a parameter.
-/

namespace RFS
namespace LMB
open GM GMB CBM Partition RFSLik

/-- The members of the configuration that `updateMap` reads: `birthTrackMaxPE_`, `birthTrackMinPE_`, `expectedBirths_`,
`MeasurementLikelihoodThreshold_`. -/
structure Cfg where
  maxPE : ℝ
  minPE : ℝ
  expected : ℝ
  thr : ℝ

variable {d n nZ : Nat}

/-- Lines 625-639: corrected landmarks and their weights `innovationLikelihood * weight * Pd / clutter[z]`. -/
noncomputable def corrected (env : Env ℝ d nZ) (z : Fin nZ) (s : Seen ℝ d) : List (Lm ℝ d × ℝ) :=
  s.c.filterMap fun x => (env.corr z x.2).map fun r => (r.1, r.2 * x.1 * s.pd / env.clut z)

/-- An entry of `mixtureMatrix`, lines 633-636. -/
noncomputable def mixEntry (env : Env ℝ d nZ) (z : Fin nZ) (s : Seen ℝ d) : GMix ℝ d :=
  (corrected env z s).foldl (fun m x => addGaussian m x.1 x.2) empty

/-- `gamma`, lines 624-641. -/
noncomputable def gammaOf (env : Env ℝ d nZ) (z : Fin nZ) (s : Seen ℝ d) : ℝ := ((corrected env z s).map Prod.snd).sum * s.p

/-- An entry of the likelihood table, lines 642-646. -/
noncomputable def entry (env : Env ℝ d nZ) (thr : ℝ) (z : Fin nZ) (s : Seen ℝ d) : ℝ := if thr < gammaOf env z s then gammaOf env z s else 0

/-- Contribution of row `r` when the permutation has `j` in its place, lines 786-791. -/
noncomputable def rowTerm (L : Fin n → Fin nZ → ℝ) (pd pe : Fin n → ℝ) (cols : List (Fin nZ)) (r : Fin n) (j : Nat) : WithBot ℝ :=
  match cols[j]? with
  | some c => logEntry (L r c)
  | none => lg (1 - pd r * pe r)

/-- `permutation_log_likelihood`, lines 784-792. -/
noncomputable def permTerm (L : Fin n → Fin nZ → ℝ) (pd pe : Fin n → ℝ) (rows : List (Fin n)) (cols : List (Fin nZ)) (o : List Nat) : WithBot ℝ :=
  ((rows.zip o).map fun x => rowTerm L pd pe cols x.1 x.2).sum

/-- `partition_likelihood`, `mixtureWeight` (`none`: the legacy entry at `nZ`) and `tracksInFovUpdatedPe`. -/
structure Tab (n nZ : Nat) where
  lik : ℝ
  mw : Fin n → Option (Fin nZ) → ℝ
  upd : Fin n → ℝ

/-- One row of lines 796-808 (and of 755-768): `w` is the likelihood of the assignment, `j` the column of row `r`. -/
noncomputable def rowStep (pd pe : Fin n → ℝ) (cols : List (Fin nZ)) (w : ℝ) (t : Tab n nZ) (x : Fin n × Nat) : Option (Tab n nZ) :=
  match cols[x.2]? with
  | some c => some { t with mw := fun m k => if m = x.1 ∧ k = some c then t.mw m k + w else t.mw m k,
                            upd := fun m => if m = x.1 then t.upd m + w else t.upd m }
  | none =>
    if 1 - pd x.1 * pe x.1 = 0 then none
    else
      let lab := w * pe x.1 * (1 - pd x.1) / (1 - pd x.1 * pe x.1)
      some { t with mw := fun m k => if m = x.1 ∧ k = none then t.mw m k + lab else t.mw m k,
                    upd := fun m => if m = x.1 then t.upd m + lab else t.upd m }

/-- One assignment: lines 794-808, 753-768. -/
noncomputable def assign (pd pe : Fin n → ℝ) (rows : List (Fin n)) (cols : List (Fin nZ)) (t : Tab n nZ) (o : List Nat) (w : ℝ) : Option (Tab n nZ) :=
  (rows.zip o).foldlM (rowStep pd pe cols w) { t with lik := t.lik + w }

/-- The loop of lines 783-812. -/
noncomputable def lexTab (step : Tab n nZ → List Nat → Option (Tab n nZ)) : Nat → PermLex.St → Tab n nZ → Option (Tab n nZ)
  | 0, _, _ => none
  | fuel + 1, st, t =>
    match PermLex.next st with
    | none => none
    | some (o, k, st') => if k = 0 then some t else (step t o).bind (lexTab step fuel st')

/-- State of the loop over the partitions: existence probabilities and mixtures of the tracks in view, `mixtureMatrix`, `mixtureWeight`,
`tracksInFovUpdatedPe`, `l`. -/
structure St (d n nZ : Nat) where
  P : Fin n → ℝ
  mix : Fin n → GMix ℝ d
  mm : Fin n → Fin nZ → GMix ℝ d
  mw : Fin n → Option (Fin nZ) → ℝ
  upd : Fin n → ℝ
  l : ℝ

/-- Lines 689-695, one row of a partition without entries. -/
noncomputable def missStep (pd pe : Fin n → ℝ) (P : Fin n → ℝ) (r : Fin n) : Option (Fin n → ℝ) :=
  if 1 - pd r * pe r = 0 then none
  else some (Function.update P r (pe r * (1 - pd r) / (1 - pd r * pe r)))

/-- `normalizeWeights`; a zero sum gives NaN. -/
noncomputable def normalize (m : GMix ℝ d) : Option (GMix ℝ d) :=
  (getWeightSum m).bind fun s => if s = 0 then none else normalizeWeights m

/-- Lines 817-828, one row: the updated track. -/
noncomputable def trackStep (cols : List (Fin nZ)) (lik : ℝ) (s : St d n nZ) (r : Fin n) : Option (St d n nZ) :=
  if lik = 0 then none
  else
    let m0 := multiplyWeights (s.mix r) (s.mw r none)
    let m1 := cols.foldl (fun m c => (addGM m (s.mm r c) (s.mw r (some c))).1) m0
    (normalize m1).map fun m2 =>
      { s with P := Function.update s.P r (s.upd r / lik), upd := Function.update s.upd r (s.upd r / lik), mix := Function.update s.mix r m2,
               mm := fun m c => if m = r ∧ c ∈ cols then empty else s.mm m c }

/-- One pass of the loop of lines 664-834. -/
noncomputable def partStep (L : Fin n → Fin nZ → ℝ) (pd pe : Fin n → ℝ) (murty : List (Fin n) → List (Fin nZ) → List (List Nat × ℝ)) (fuel : Nat)
    (o : Obj n nZ) (s : St d n nZ) (p : Nat) : Option (St d n nZ) :=
  let sz := getPartitionSize o p
  let useMurty := if sz.2.1 + sz.2.2 ≤ 8 ∨ sz.1 = false then false else true
  let part := (getPartition L o p useMurty).1
  if part.flag = false ∨ part.cols.length = 0 then
    (part.rows.foldlM (missStep pd pe) s.P).map fun P =>
      { s with P := P, l := s.l * (part.rows.map fun r => 1 - pd r * pe r).prod }
  else
    let t0 : Tab n nZ := ⟨0, s.mw, s.upd⟩
    let t := if useMurty then (murty part.rows part.cols).foldlM (fun t x => assign pd pe part.rows part.cols t x.1 x.2) t0
      else lexTab (fun t o => assign pd pe part.rows part.cols t o (ex (permTerm L pd pe part.rows part.cols o))) fuel
        (PermLex.init part.rows.length part.cols.length true) t0
    t.bind fun t => (part.rows.foldlM (trackStep part.cols t.lik) { s with mw := t.mw, upd := t.upd }).map fun s' => { s' with l := s'.l * t.lik }

/-- Lines 658-834, from the filled table on. -/
noncomputable def update (L : Fin n → Fin nZ → ℝ) (pd pe : Fin n → ℝ) (mix : Fin n → GMix ℝ d) (mm : Fin n → Fin nZ → GMix ℝ d)
    (murty : List (Fin n) → List (Fin nZ) → List (List Nat × ℝ)) (fuel ncc : Nat) (lab : Fin n ⊕ Fin nZ → Nat) : Option (St d n nZ) :=
  (partition ncc lab none).bind fun o =>
    (List.range o.nP).foldlM (partStep L pd pe murty fuel o) ⟨pe, mix, mm, fun _ _ => 0, fun _ => 0, 1⟩

/-- `associationP[z]`, lines 847-855. -/
noncomputable def assocP (s : St d n nZ) (z : Fin nZ) : ℝ := ∑ m, s.mw m (some z)

/-- Lines 857-866: unused measurements and their birth probabilities. -/
noncomputable def births (cfg : Cfg) (s : St d n nZ) : List (Fin nZ × ℝ) :=
  (List.finRange nZ).filterMap fun z =>
    let p := min cfg.maxPE (1 - assocP s z)
    if cfg.minPE < p then some (z, p) else none

/-- A track in view: its index and what the update reads of it, lines 564-587. -/
noncomputable def inFov (env : Env ℝ d nZ) (cs : List (Track ℝ d × List (ℝ × Lm ℝ d))) : List (Nat × Track ℝ d × Seen ℝ d) :=
  cs.zipIdx.filterMap fun x => (seenOf env x.1).map fun s => (x.2, x.1.1, s)

/-- Lines 588-884, from the list of the tracks in view on: tracks, births, factor of the particle's weight. -/
noncomputable def updateFov (env : Env ℝ d nZ) (cfg : Cfg) (tracks : List (Track ℝ d))
    (murty : ∀ n, List (Fin n) → List (Fin nZ) → List (List Nat × ℝ)) (fuel ncc : Nat) (lab : ∀ n, Fin n ⊕ Fin nZ → Nat)
    (fov : List (Nat × Track ℝ d × Seen ℝ d)) : Option (List (Track ℝ d) × List (Fin nZ × ℝ) × ℝ) :=
  (update (fun (m : Fin fov.length) z => entry env cfg.thr z fov[m].2.2) (fun m => fov[m].2.2.pd) (fun m => fov[m].2.2.p)
    (fun m => fov[m].2.1.gm) (fun m z => mixEntry env z fov[m].2.2) (murty _) fuel ncc (lab _)).map fun s =>
    ((List.finRange fov.length).foldl (fun ts m => ts.modify fov[m].1 fun t => { t with P := s.P m, gm := s.mix m }) tracks, births cfg s, s.l)

/-- `updateMap`, lines 516-884: tracks, births, factor of the particle's weight. -/
noncomputable def updateMap (env : Env ℝ d nZ) (cfg : Cfg) (tracks : List (Track ℝ d))
    (murty : ∀ n, List (Fin n) → List (Fin nZ) → List (List Nat × ℝ)) (fuel ncc : Nat) (lab : ∀ n, Fin n ⊕ Fin nZ → Nat) :
    Option (List (Track ℝ d) × List (Fin nZ × ℝ) × ℝ) :=
  if tracks.length = 0 then some (tracks, (List.finRange nZ).map fun z => (z, min cfg.maxPE (cfg.expected / nZ)), 1)
  else
    (tracks.mapM fun t => (comps t.gm).map fun c => (t, c)).bind fun cs =>
      updateFov env cfg (tracks.map fun t => { t with prevP := t.P }) murty fuel ncc lab (inFov env cs)

/-- `addBirthTracks` for one particle, lines 302-332: both lists are emptied from the back. -/
noncomputable def addBirths (inv : Fin nZ → Lm ℝ d) (bs : List (Fin nZ × ℝ)) (tracks : List (Track ℝ d)) : List (Track ℝ d) :=
  bs.reverse.foldl (fun ts b => ts ++ [⟨b.2, 0, addGaussian empty (inv b.1) 1⟩]) tracks

end LMB
end RFS
