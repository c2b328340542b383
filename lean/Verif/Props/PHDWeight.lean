import Verif.Model.PHDWeight
import Verif.Props.PHD
import Verif.Props.RFSLikelihood
import Verif.Props.ParticleFilter
import Verif.Lemmas.LMBLoop

/-!
Properties C181-C185: particle weights of the RB-PHD filter.
-/

set_option linter.unusedSectionVars false

namespace RFS
namespace PHDWProps
open PHD PHDW RFSLik RFSLikProps Partition PartitionProps Assoc

variable {T Z : Type*} {nZ : Nat}

/-! ### Specification -/

/-- The intensity of a map at the mean of `x`: sum of weighted densities. -/
noncomputable def intensity (env : WEnv T nZ) (map : List (Comp T ℝ)) (x : T) : ℝ := (map.map fun c => c.w * env.dens c.lm x).sum

/-- The expected number of landmarks of a map. -/
noncomputable def expected (map : List (Comp T ℝ)) : ℝ := (map.map Comp.w).sum

/-- Likelihood of measurement `z` from a landmark at `l`: detection probability times density, within the gate on the Mahalanobis distance. -/
noncomputable def likOf (env : WEnv T nZ) (mdThr : ℝ) (l : T) (z : Fin nZ) : ℝ := if (env.zlik l z).2 ≤ mdThr * mdThr then env.pd l * (env.zlik l z).1 else 0

/-- `pts` are evaluation points of `map`: at most `n` Gaussians in view of weight at least `minW`; one in view of at least that weight is only left out if there are `n` and none of them is lighter. -/
def EvalPts (minW : ℝ) (pd : T → ℝ) (n : Nat) (map pts : List (Comp T ℝ)) : Prop :=
  ∃ rest, map.Perm (pts ++ rest) ∧ (∀ e ∈ pts, minW ≤ e.w ∧ 0 < pd e.lm) ∧ pts.length ≤ n ∧
    ∀ r ∈ rest, minW ≤ r.w → 0 < pd r.lm → pts.length = n ∧ ∀ e ∈ pts, r.w ≤ e.w

/-- The factor of the weight for evaluation points `pts` when the map was `prior` and is `post`: `g` is the likelihood of the scan given the points. -/
noncomputable def factor (env : WEnv T nZ) (tiny g : ℝ) (prior post pts : List (Comp T ℝ)) : ℝ :=
  g * (pts.map fun e => (tiny + intensity env prior e.lm) / (tiny + intensity env post e.lm)).prod * Real.exp (expected post - expected prior)

/-- `std::sort` by descending weight. -/
def IsSort (srt : List (Comp T ℝ) → List (Comp T ℝ)) : Prop := ∀ l, (srt l).Perm l ∧ (srt l).Pairwise fun a b => b.w ≤ a.w

/-! ### C182: evaluation points -/

theorem pick_spec (minW : ℝ) (pd : T → ℝ) (n : Nat) : ∀ (g : List (Comp T ℝ)) (k : Nat), k < n → g.Pairwise (fun a b => b.w ≤ a.w) → EvalPts minW pd (n - k) g (pick minW pd n k g) := by
  intro g
  induction g with
  | nil => intro k _ _; exact ⟨[], by simp [pick]⟩
  | cons c cs ih =>
    intro k hk hs
    rw [List.pairwise_cons] at hs
    unfold pick
    split_ifs with h1 h2 h3 h4
    · refine ⟨c :: cs, by simp, by simp, by simp, ?_⟩
      intro r hr hw
      rcases List.mem_cons.1 hr with rfl | hr
      · exact absurd hw (not_le.2 h1)
      · exact absurd (hw.trans (hs.1 r hr)) (not_le.2 h1)
    · refine ⟨cs, by simp, ?_, by simp; omega, ?_⟩
      · intro e he
        rw [List.mem_singleton] at he
        subst he
        exact ⟨not_lt.1 h1, h2⟩
      · intro r hr hw hp
        refine ⟨by simp; omega, fun e he => ?_⟩
        rw [List.mem_singleton] at he
        subst he
        exact hs.1 r hr
    · obtain ⟨rest, a1, a2, a3, a4⟩ := ih (k + 1) (by omega) hs.2
      refine ⟨rest, by simpa using a1, ?_, by simp; omega, ?_⟩
      · intro e he
        rcases List.mem_cons.1 he with rfl | he
        · exact ⟨not_lt.1 h1, h2⟩
        · exact a2 e he
      · intro r hr hw hp
        obtain ⟨b1, b2⟩ := a4 r hr hw hp
        refine ⟨by simp [b1]; omega, fun e he => ?_⟩
        rcases List.mem_cons.1 he with rfl | he
        · exact hs.1 r (a1.symm.subset (by simp [hr]))
        · exact b2 e he
    · omega
    · obtain ⟨rest, a1, a2, a3, a4⟩ := ih k hk hs.2
      refine ⟨c :: rest, ?_, a2, a3, ?_⟩
      · exact (a1.cons c).trans (List.perm_middle.symm)
      · intro r hr hw hp
        rcases List.mem_cons.1 hr with rfl | hr
        · exact absurd hp h2
        · exact a4 r hr hw hp

theorem evalPts_perm {minW : ℝ} {pd : T → ℝ} {n : Nat} {map map' pts : List (Comp T ℝ)} (h : EvalPts minW pd n map pts) (hp : map'.Perm map) : EvalPts minW pd n map' pts := by
  obtain ⟨rest, a1, a2⟩ := h
  exact ⟨rest, hp.trans a1, a2⟩

/-- **C182**: the evaluation points are the heaviest Gaussians in view, as many as configured, of at least the configured weight; a negative number means all. -/
theorem C182_points (minW : ℝ) (pd : T → ℝ) (count : Int) (srt : List (Comp T ℝ) → List (Comp T ℝ)) (hs : IsSort srt) (map : List (Comp T ℝ)) (h0 : nEval count map.length ≠ 0) :
    EvalPts minW pd (if 0 ≤ count then count.toNat else map.length) map (pick minW pd (nEval count map.length) 0 (srt map)) := by
  have h := evalPts_perm (pick_spec minW pd (nEval count map.length) (srt map) 0 (Nat.pos_of_ne_zero h0) (hs map).2) (hs map).1.symm
  rw [Nat.sub_zero] at h
  obtain ⟨rest, a1, a2, a3, a4⟩ := h
  refine ⟨rest, a1, a2, ?_, ?_⟩
  · refine a3.trans ?_
    unfold nEval
    split_ifs <;> omega
  · intro r hr hw hp
    obtain ⟨b1, b2⟩ := a4 r hr hw hp
    refine ⟨?_, b2⟩
    have hl := a1.length_eq
    rw [List.length_append] at hl
    have := List.length_pos_of_mem hr
    rw [b1] at hl ⊢
    clear b1
    unfold nEval at hl ⊢
    split_ifs at hl ⊢ <;> omega

/-- Sorting functions exist. -/
theorem exists_sort : IsSort fun l : List (Comp T ℝ) => l.mergeSort fun a b => decide (b.w ≤ a.w) := by
  intro l
  refine ⟨List.mergeSort_perm _ _, ?_⟩
  have := List.pairwise_mergeSort (le := fun a b : Comp T ℝ => decide (b.w ≤ a.w)) (fun a b c h1 h2 => by simp at *; linarith) (fun a b => by simp [le_total]) l
  exact this.imp fun h => by simpa using h

/-- Two of three Gaussians: the second heaviest is out of view, the lightest is too light. -/
example : EvalPts (T := Bool) (1 / 10) (fun l => if l then 1 / 2 else 0) 2 [⟨true, 1 / 20, 0⟩, ⟨false, 3 / 4, 0⟩, ⟨true, 1, 0⟩] [⟨true, 1, 0⟩] ∧
    nEval 2 [(⟨true, 1 / 20, 0⟩ : Comp Bool ℝ), ⟨false, 3 / 4, 0⟩, ⟨true, 1, 0⟩].length ≠ 0 := by
  refine ⟨⟨[⟨true, 1 / 20, 0⟩, ⟨false, 3 / 4, 0⟩], ?_, ?_, ?_, ?_⟩, by decide⟩
  · exact List.perm_append_singleton (⟨true, 1, 0⟩ : Comp Bool ℝ) [⟨true, 1 / 20, 0⟩, ⟨false, 3 / 4, 0⟩]
  · norm_num
  · norm_num
  · simp
    norm_num

/-! ### C181: the importance factor -/

theorem foldl_add_eq {α : Type*} (f : α → ℝ) (l : List α) (a : ℝ) : l.foldl (fun a c => a + f c) a = a + (l.map f).sum := by
  induction l generalizing a with
  | nil => simp
  | cons c l ih => rw [List.foldl_cons, ih]; simp [add_assoc]

theorem foldl_mul_eq {α : Type*} (f : α → ℝ) (l : List α) (a : ℝ) : l.foldl (fun a c => a * f c) a = a * (l.map f).prod := by
  induction l generalizing a with
  | nil => simp
  | cons c l ih => rw [List.foldl_cons, ih]; simp [mul_assoc]

theorem prod_div {α : Type*} (f g : α → ℝ) (l : List α) : (l.map fun x => f x / g x).prod = (l.map f).prod / (l.map g).prod := by
  induction l with
  | nil => simp
  | cons c l ih => simp only [List.map_cons, List.prod_cons, ih]; rw [mul_div_mul_comm]

theorem lTab_eq (env : WEnv T nZ) (mdThr : ℝ) (pts : List (Comp T ℝ)) : lTab env mdThr pts = fun m z => likOf env mdThr pts[m].lm z := by
  funext m z
  unfold lTab likOf
  split_ifs with h1 h2
  · exact absurd h2 (not_le.2 h1)
  · rfl
  · rw [mul_comm]
  · exact absurd (not_lt.1 h1) (by assumption)

/-- The weight, in terms of the value of `rfsMeasurementLikelihood`. -/
theorem importance_eq (cfg : WCfg) (s : Sensor T Z ℝ) (thr birthW : ℝ) (Zs : List Z) (env : WEnv T Zs.length) (tiny : ℝ) (srt : List (Comp T ℝ) → List (Comp T ℝ)) (hs : IsSort srt)
    (murty : ∀ n, List (Fin n) → List (Fin Zs.length) → Option ℝ) (fuel ncc : Nat) (lab : ∀ n, Fin n ⊕ Fin Zs.length → Nat) (map : List (Comp T ℝ)) (w minW : ℝ) (hcl : cfg.cluster = some false)
    (hw : cfg.minW = some minW) (h0 : nEval cfg.count (updateMap s thr birthW map Zs).map.length ≠ 0) :
    let post := (updateMap s thr birthW map Zs).map
    let pts := pick minW env.pd (nEval cfg.count post.length) 0 (srt post)
    newWeight cfg s thr birthW Zs env tiny srt murty fuel ncc lab map w =
      (rfsLik (fun (m : Fin pts.length) z => likOf env cfg.mdThr pts[m].lm z) (fun m => env.pd pts[m].lm) env.clut env.integral (murty _) fuel ncc (lab _)).map fun g => w * factor env tiny g map post pts := by
  intro post pts
  unfold newWeight
  rw [hcl, Option.bind_some, if_neg (by simp)]
  unfold importance
  rw [if_neg h0, hw, Option.bind_some]
  simp only
  rw [← lTab_eq]
  refine congrArg (fun f => Option.map f _) ?_
  funext g
  have hp := (hs post).1
  have e1 : ∀ x : T, intensityAt env tiny Comp.wp (srt post) x = tiny + intensity env map x := by
    intro x
    unfold intensityAt intensity
    rw [foldl_add_eq (fun c : Comp T ℝ => c.wp * env.dens c.lm x), (hp.map fun c => c.wp * env.dens c.lm x).sum_eq, PHDProps.C75_prior_intensity s thr birthW map Zs fun l => env.dens l x]
  have e2 : ∀ x : T, intensityAt env tiny Comp.w (srt post) x = tiny + intensity env post x := by
    intro x
    unfold intensityAt intensity
    rw [foldl_add_eq (fun c : Comp T ℝ => c.w * env.dens c.lm x), (hp.map fun c => c.w * env.dens c.lm x).sum_eq]
  have e3 : weightSum Comp.w (srt post) = expected post := by
    unfold weightSum expected
    rw [foldl_add_eq Comp.w, (hp.map Comp.w).sum_eq, zero_add]
  have e4 : weightSum Comp.wp (srt post) = expected map := by
    unfold weightSum expected
    rw [foldl_add_eq Comp.wp, (hp.map Comp.wp).sum_eq, zero_add]
    have := PHDProps.C75_prior_intensity s thr birthW map Zs fun _ => (1 : ℝ)
    simp only [mul_one] at this
    exact this
  have e5 : intensityProd env tiny Comp.wp (srt post) pts = (pts.map fun e => tiny + intensity env map e.lm).prod := by
    unfold intensityProd
    simp only [e1]
    rw [foldl_mul_eq fun e : Comp T ℝ => tiny + intensity env map e.lm, one_mul]
  have e6 : intensityProd env tiny Comp.w (srt post) pts = (pts.map fun e => tiny + intensity env post e.lm).prod := by
    unfold intensityProd
    simp only [e2]
    rw [foldl_mul_eq fun e : Comp T ℝ => tiny + intensity env post e.lm, one_mul]
  have e7 : g * intensityProd env tiny Comp.wp (srt post) pts / intensityProd env tiny Comp.w (srt post) pts * Real.exp (weightSum Comp.w (srt post) - weightSum Comp.wp (srt post)) * w =
      w * factor env tiny g map post pts := by
    rw [e3, e4, e5, e6]
    unfold factor
    rw [prod_div]
    ring
  exact e7

/-- **C181**, the full claim: the weight of a particle is multiplied by the likelihood of the scan given evaluation points of the updated map, summed over all one-to-one associations, times the ratio of the
products of the intensities at these points before and after the update, times the exponential of the difference of the expected numbers of landmarks. -/
def C181_full (cfg : WCfg) (minW : ℝ) (s : Sensor T Z ℝ) (thr birthW : ℝ) (Zs : List Z) (env : WEnv T Zs.length) (tiny : ℝ) (map : List (Comp T ℝ)) (w : ℝ) (result : Option ℝ) : Prop :=
  let post := (updateMap s thr birthW map Zs).map
  ∃ pts, EvalPts minW env.pd (if 0 ≤ cfg.count then cfg.count.toNat else post.length) post pts ∧
    result = some (w * factor env tiny (total (fun (m : Fin pts.length) z => likOf env cfg.mdThr pts[m].lm z) (fun m => 1 - env.pd pts[m].lm) env.clut / env.integral) map post pts)

/-- Probabilities of detection are at most one, likelihoods and clutter not negative. -/
structure EnvOk (env : WEnv T nZ) : Prop where
  pd : ∀ l, env.pd l ≤ 1
  lik : ∀ l z, 0 ≤ (env.zlik l z).1
  clut : ∀ z, 0 ≤ env.clut z

theorem likOf_nonneg {env : WEnv T nZ} (he : EnvOk env) (mdThr : ℝ) {minW : ℝ} {n : Nat} {map pts : List (Comp T ℝ)} (hp : EvalPts minW env.pd n map pts) (m : Fin pts.length) (z : Fin nZ) :
    0 ≤ likOf env mdThr pts[m].lm z := by
  obtain ⟨-, -, h, -⟩ := hp
  unfold likOf
  split
  · exact mul_nonneg (h _ (List.getElem_mem m.2)).2.le (he.lik _ _)
  · exact le_rfl

/-- C181 (partial): the weight when no partition of the table has more than 8 members, up to two deviations of `rfsMeasurementLikelihood` (C42): likelihoods of linked pairs are raised to `e^-1000`, and landmarks
without a measurement in reach count with `Pd`. Missing: larger partitions; `1 - Pd` for those landmarks (`C181_violated`). -/
theorem C181_value_partial (cfg : WCfg) (minW : ℝ) (s : Sensor T Z ℝ) (thr birthW : ℝ) (Zs : List Z) (env : WEnv T Zs.length) (he : EnvOk env) (tiny : ℝ) (srt : List (Comp T ℝ) → List (Comp T ℝ))
    (hs : IsSort srt) (map : List (Comp T ℝ)) (w : ℝ) (hcl : cfg.cluster = some false) (hw : cfg.minW = some minW) (hc : cfg.count ≠ 0) (hm : map ≠ []) :
    let post := (updateMap s thr birthW map Zs).map
    ∃ pts, EvalPts minW env.pd (if 0 ≤ cfg.count then cfg.count.toNat else post.length) post pts ∧
      let L : Fin pts.length → Fin Zs.length → ℝ := fun m z => likOf env cfg.mdThr pts[m].lm z
      ∀ murty fuel ncc lab, IsComponents L 0 ncc (lab pts.length) → Small L → 2 ^ 32 ≤ fuel →
        newWeight cfg s thr birthW Zs env tiny srt murty fuel ncc lab map w =
          some (w * factor env tiny (total (floored L) (missed L fun m => env.pd pts[m].lm) env.clut / env.integral) map post pts) := by
  intro post
  have h0 : nEval cfg.count post.length ≠ 0 := by
    have : post.length ≠ 0 := by
      have h1 : map.length ≠ 0 := by simpa using hm
      simp only [post, PHDProps.updateMap_map, List.length_append, List.length_map]
      omega
    unfold nEval
    split_ifs <;> omega
  have hp := C182_points minW env.pd cfg.count srt hs post h0
  refine ⟨_, hp, ?_⟩
  intro L murty fuel ncc lab hcomp hsmall hf
  rw [importance_eq cfg s thr birthW Zs env tiny srt hs murty fuel ncc lab map w minW hcl hw h0,
    C42_value_partial L (fun m => env.pd _) env.clut env.integral (murty _) fuel ncc (lab _) hcomp (fun m z => likOf_nonneg he cfg.mdThr hp m z) (fun m => he.pd _) he.clut hsmall hf]
  rfl

/-- The hypotheses are met: a landmark seen with probability 1/2, a scan of one measurement within reach, and the likelihood table of the one evaluation point is small and has components. -/
example : ∃ (env : WEnv Unit [()].length) (cfg : WCfg), EnvOk env ∧ cfg.cluster = some false ∧ cfg.minW = some (1 / 10) ∧ cfg.count ≠ 0 ∧ 0 < likOf env cfg.mdThr () 0 ∧
    (∀ l, env.pd l < 1) ∧ Small (fun (_ : Fin 1) z => likOf env cfg.mdThr () z) ∧ ∃ ncc lab, IsComponents (fun (_ : Fin 1) z => likOf env cfg.mdThr () z) 0 ncc lab := by
  refine ⟨⟨fun _ => 1 / 2, fun _ _ => 1, fun _ _ => (1, 2), fun _ => 1 / 4, 1⟩, ⟨8, some (1 / 10), 3, some false⟩, ⟨fun _ => by norm_num, fun _ _ => by norm_num, fun _ => by norm_num⟩, rfl, rfl, by decide, ?_, fun _ => by norm_num, ?_, ?_⟩
  · norm_num [likOf]
  · intro R C _ _ _
    have h1 := Finset.card_le_univ R
    have h2 := Finset.card_le_univ C
    simp only [Fintype.card_fin, List.length_singleton] at h1 h2
    have : Fintype.card (Fin [()].length) = 1 := rfl
    omega
  · exact components_exist _ _

/-- C181 (partial): the full claim if every evaluation point has a measurement in reach and no likelihood of a linked pair is below `e^-1000`. -/
theorem C181_exact_partial (cfg : WCfg) (minW : ℝ) (s : Sensor T Z ℝ) (thr birthW : ℝ) (Zs : List Z) (env : WEnv T Zs.length) (he : EnvOk env) (tiny : ℝ) (srt : List (Comp T ℝ) → List (Comp T ℝ))
    (hs : IsSort srt) (map : List (Comp T ℝ)) (w : ℝ) (hcl : cfg.cluster = some false) (hw : cfg.minW = some minW) (hc : cfg.count ≠ 0) (hm : map ≠ []) :
    let post := (updateMap s thr birthW map Zs).map
    ∃ pts, EvalPts minW env.pd (if 0 ≤ cfg.count then cfg.count.toNat else post.length) post pts ∧
      let L : Fin pts.length → Fin Zs.length → ℝ := fun m z => likOf env cfg.mdThr pts[m].lm z
      ∀ murty fuel ncc lab, IsComponents L 0 ncc (lab pts.length) → Small L → 2 ^ 32 ≤ fuel → (∀ m, ∃ z, 0 < L m z) → (∀ m z, Linked L 0 (.inl m) (.inr z) → Real.exp (-1000) ≤ L m z) →
        C181_full cfg minW s thr birthW Zs env tiny map w (newWeight cfg s thr birthW Zs env tiny srt murty fuel ncc lab map w) := by
  intro post
  have h0 : nEval cfg.count post.length ≠ 0 := by
    have : post.length ≠ 0 := by
      have h1 : map.length ≠ 0 := by simpa using hm
      simp only [post, PHDProps.updateMap_map, List.length_append, List.length_map]
      omega
    unfold nEval
    split_ifs <;> omega
  have hp := C182_points minW env.pd cfg.count srt hs post h0
  refine ⟨_, hp, ?_⟩
  intro L murty fuel ncc lab hcomp hsmall hf hreach hdense
  refine ⟨_, hp, ?_⟩
  rw [importance_eq cfg s thr birthW Zs env tiny srt hs murty fuel ncc lab map w minW hcl hw h0,
    C42_exact_partial L (fun m => env.pd _) env.clut env.integral (murty _) fuel ncc (lab _) hcomp (fun m z => likOf_nonneg he cfg.mdThr hp m z) (fun m => he.pd _) he.clut hsmall hf hreach hdense]
  rfl

/-- **C181 is violated**: one landmark in view with `Pd = 1/4` and one measurement out of its reach, to be explained as clutter. The factor has `1/4` for the missed detection, not `3/4`. -/
theorem C181_violated : ∃ (s : Sensor Unit Unit ℝ) (env : WEnv Unit 1) (map : List (Comp Unit ℝ)) (cfg : WCfg), EnvOk env ∧ cfg.cluster = some false ∧ cfg.minW = some 0 ∧ cfg.count = 8 ∧
    (∀ l, env.pd l = (s.pd l).1) ∧ ∀ tiny, 0 < tiny → ∀ srt, IsSort srt → ∀ murty fuel ncc lab, IsComponents (fun (_ : Fin 1) (_ : Fin 1) => (0 : ℝ)) 0 ncc (lab 1) → 2 ^ 32 ≤ fuel →
      ¬ C181_full cfg 0 s 3 (1 / 4) [()] env tiny map 1 (newWeight cfg s 3 (1 / 4) [()] env tiny srt murty fuel ncc lab map 1) := by
  let s : Sensor Unit Unit ℝ := ⟨fun _ => (1 / 4, false), fun _ _ => ((), 1, 100), fun _ _ => 1⟩
  let env : WEnv Unit 1 := ⟨fun _ => 1 / 4, fun _ _ => 1, fun _ _ => (1, 100), fun _ => 1, 1⟩
  have he : EnvOk env := ⟨fun _ => by norm_num [env], fun _ _ => by norm_num [env], fun _ => by norm_num [env]⟩
  refine ⟨s, env, [⟨(), 1, 0⟩], ⟨8, some 0, 3, some false⟩, he, rfl, rfl, rfl, fun _ => rfl, ?_⟩
  intro tiny ht srt hs murty fuel ncc lab hcomp hf
  have hpost : (updateMap s 3 (1 / 4) [⟨(), 1, 0⟩] [()]).map = [⟨(), 3 / 4, 1⟩] := by
    rw [PHDProps.updateMap_map]
    have hE : entry s 3 ⟨(), 1, 0⟩ () = (none, 0) := by
      unfold entry
      norm_num [s, Pd]
    have hN : newComp s 3 [⟨(), 1, 0⟩] 1 ⟨(), 1, 0⟩ () = none := by
      unfold newComp
      rw [hE]
    simp only [List.map_cons, List.map_nil, List.flatMap_cons, List.flatMap_nil, List.filterMap_cons, List.length_singleton, hN, List.filterMap_nil, List.append_nil]
    unfold PHD.missed
    norm_num [s, Pd]
  have hL : ∀ l z, likOf env 3 l z = 0 := by
    intro l z
    unfold likOf
    rw [if_neg]
    norm_num [env]
  rintro ⟨pts, hp, h⟩
  rw [hpost] at hp h
  have hpts : pts = [⟨(), 3 / 4, 1⟩] := by
    obtain ⟨rest, a1, -, -, a4⟩ := hp
    have hl := a1.length_eq
    cases pts with
    | nil =>
      rw [List.nil_append] at a1
      have hr := List.perm_singleton.1 a1.symm
      subst hr
      have := (a4 ⟨(), 3 / 4, 1⟩ (by simp) (by norm_num) (by norm_num [env])).1
      simp at this
    | cons x l =>
      simp only [List.length_append, List.length_cons, List.length_nil] at hl
      have h1 : l = [] := List.length_eq_zero_iff.1 (by omega)
      have h2 : rest = [] := List.length_eq_zero_iff.1 (by omega)
      subst h1 h2
      simpa using List.perm_singleton.1 a1.symm
  have h0 : nEval 8 (updateMap s 3 (1 / 4) [⟨(), 1, 0⟩] [()]).map.length ≠ 0 := by rw [hpost]; simp [nEval]
  have hi : ∀ post, (updateMap s 3 (1 / 4) [⟨(), 1, 0⟩] [()]).map = post → ∀ q, pick 0 env.pd (nEval 8 post.length) 0 (srt post) = q →
      newWeight ⟨8, some 0, 3, some false⟩ s 3 (1 / 4) [()] env tiny srt murty fuel ncc lab [⟨(), 1, 0⟩] 1 =
        (rfsLik (fun (m : Fin q.length) z => likOf env 3 q[m].lm z) (fun m => env.pd q[m].lm) env.clut env.integral (murty _) fuel ncc (lab _)).map fun g => 1 * factor env tiny g [⟨(), 1, 0⟩] post q := by
    rintro _ rfl _ rfl
    exact importance_eq ⟨8, some 0, 3, some false⟩ s 3 (1 / 4) [()] env tiny srt hs murty fuel ncc lab [⟨(), 1, 0⟩] 1 0 rfl rfl h0
  have hsrt : srt [⟨(), 3 / 4, 1⟩] = [(⟨(), 3 / 4, 1⟩ : Comp Unit ℝ)] := List.perm_singleton.1 (hs _).1
  have hpick : pick 0 env.pd (nEval 8 [(⟨(), 3 / 4, 1⟩ : Comp Unit ℝ)].length) 0 (srt [⟨(), 3 / 4, 1⟩]) = [⟨(), 3 / 4, 1⟩] := by
    rw [hsrt]
    unfold pick
    norm_num [env, nEval]
  have key : ∀ q : List (Comp Unit ℝ), q = [⟨(), 3 / 4, 1⟩] →
      rfsLik (fun (m : Fin q.length) z => likOf env 3 q[m].lm z) (fun m => env.pd q[m].lm) env.clut env.integral (murty _) fuel ncc (lab _) = some (1 / 4) ∧
      total (fun (m : Fin q.length) z => likOf env 3 q[m].lm z) (fun m => 1 - env.pd q[m].lm) env.clut / env.integral = 3 / 4 := by
    rintro _ rfl
    have e : (fun (m : Fin [(⟨(), 3 / 4, 1⟩ : Comp Unit ℝ)].length) z => likOf env 3 [(⟨(), 3 / 4, 1⟩ : Comp Unit ℝ)][m].lm z) = fun (_ : Fin 1) (_ : Fin 1) => (0 : ℝ) := by
      funext m z; exact hL _ _
    rw [e]
    have hsmall : Small (fun (_ : Fin 1) (_ : Fin 1) => (0 : ℝ)) := by
      intro R C _ _ _
      have h1 := Finset.card_le_univ R
      have h2 := Finset.card_le_univ C
      simp only [Fintype.card_fin] at h1 h2
      omega
    have hnl : ∀ m z, floored (fun (_ : Fin 1) (_ : Fin 1) => (0 : ℝ)) m z = 0 := by
      intro m z
      unfold floored
      rw [if_neg]
      intro h
      exact not_empty_of_linked _ m z h (fun _ => le_refl _)
    constructor
    · have hv := C42_value_partial (fun (_ : Fin 1) (_ : Fin 1) => (0 : ℝ)) (fun _ => 1 / 4) (fun _ => 1) 1 (murty 1) fuel ncc (lab 1) hcomp (fun _ _ => le_refl _) (fun _ => by norm_num)
        (fun _ => by norm_num) hsmall hf
      have : RFSLikProps.missed (fun (_ : Fin 1) (_ : Fin 1) => (0 : ℝ)) (fun _ => 1 / 4) 0 = 1 / 4 := by
        unfold RFSLikProps.missed
        have he : EmptyRow (fun (_ : Fin 1) (_ : Fin 1) => (0 : ℝ)) 0 (0 : Fin 1) := fun _ => le_refl _
        rw [if_pos he]
      rw [total_zero _ _ _ hnl, Fin.prod_univ_one, Fin.prod_univ_one, this] at hv
      refine hv.trans ?_
      norm_num
    · have hv := total_zero (fun (_ : Fin 1) (_ : Fin 1) => (0 : ℝ)) (fun _ => 1 - 1 / 4) (fun _ => (1 : ℝ)) (fun _ _ => rfl)
      rw [Fin.prod_univ_one, Fin.prod_univ_one] at hv
      refine (congrArg (· / (1 : ℝ)) hv).trans ?_
      norm_num
  have hi := hi _ hpost _ hpick
  rw [(key _ rfl).1, Option.map_some] at hi
  rw [hi, Option.some.injEq, one_mul, one_mul] at h
  subst hpts
  erw [(key _ rfl).2] at h
  unfold factor at h
  simp only [List.map_cons, List.map_nil, List.prod_cons, List.prod_nil, mul_one] at h
  have hint : ∀ c : Comp Unit ℝ, 0 < c.w → 0 < tiny + intensity env [c] () := by
    intro c hc
    unfold intensity
    simp [env]
    linarith
  have hpos : 0 < (tiny + intensity env [⟨(), 1, 0⟩] ()) / (tiny + intensity env [⟨(), 3 / 4, 1⟩] ()) * Real.exp (expected [(⟨(), 3 / 4, 1⟩ : Comp Unit ℝ)] - expected [(⟨(), 1, 0⟩ : Comp Unit ℝ)]) :=
    mul_pos (div_pos (hint _ (by norm_num)) (hint _ (by norm_num))) (Real.exp_pos _)
  rw [mul_assoc, mul_assoc] at h
  have := mul_right_cancel₀ hpos.ne' h
  norm_num at this

/-- C181: the weight of a particle stays positive, so that no scan can make all weights zero, if no evaluation point is certain to be detected and clutter is possible everywhere. -/
theorem C181_positive (cfg : WCfg) (minW : ℝ) (s : Sensor T Z ℝ) (thr birthW : ℝ) (Zs : List Z) (env : WEnv T Zs.length) (he : EnvOk env) (hlt : ∀ l, env.pd l < 1) (hclut : ∀ z, 0 < env.clut z)
    (hint : 0 < env.integral) (hdens : ∀ a b, 0 ≤ env.dens a b) (tiny : ℝ) (htiny : 0 < tiny) (srt : List (Comp T ℝ) → List (Comp T ℝ)) (hs : IsSort srt) (map : List (Comp T ℝ))
    (hmap : ∀ c ∈ map, 0 ≤ c.w) (hpost : ∀ c ∈ (updateMap s thr birthW map Zs).map, 0 ≤ c.w) (w : ℝ) (hw0 : 0 < w) (hcl : cfg.cluster = some false) (hw : cfg.minW = some minW) (hc : cfg.count ≠ 0)
    (hm : map ≠ []) :
    ∃ pts, EvalPts minW env.pd (if 0 ≤ cfg.count then cfg.count.toNat else (updateMap s thr birthW map Zs).map.length) (updateMap s thr birthW map Zs).map pts ∧
      let L : Fin pts.length → Fin Zs.length → ℝ := fun m z => likOf env cfg.mdThr pts[m].lm z
      ∀ murty fuel ncc lab, IsComponents L 0 ncc (lab pts.length) → Small L → 2 ^ 32 ≤ fuel → ∃ v, newWeight cfg s thr birthW Zs env tiny srt murty fuel ncc lab map w = some v ∧ 0 < v := by
  obtain ⟨pts, hp, h⟩ := C181_value_partial cfg minW s thr birthW Zs env he tiny srt hs map w hcl hw hc hm
  refine ⟨pts, hp, fun murty fuel ncc lab h1 h2 h3 => ⟨_, h murty fuel ncc lab h1 h2 h3, ?_⟩⟩
  have hi : ∀ (l : List (Comp T ℝ)) (x : T), (∀ c ∈ l, 0 ≤ c.w) → 0 < tiny + intensity env l x := by
    intro l x hl
    refine add_pos_of_pos_of_nonneg htiny (List.sum_nonneg fun y hy => ?_)
    obtain ⟨c, hc, rfl⟩ := List.mem_map.1 hy
    exact mul_nonneg (hl c hc) (hdens _ _)
  refine mul_pos hw0 (mul_pos (mul_pos (div_pos ?_ hint) (List.prod_pos fun y hy => ?_)) (Real.exp_pos _))
  · rw [← S_univ]
    have hmiss : ∀ m, 0 < RFSLikProps.missed (fun (m : Fin pts.length) z => likOf env cfg.mdThr pts[m].lm z) (fun m => env.pd pts[m].lm) m := by
      intro m
      unfold RFSLikProps.missed
      obtain ⟨-, -, h', -⟩ := hp
      split
      · exact (h' _ (List.getElem_mem m.2)).2
      · linarith [hlt pts[m].lm]
    refine LMB.S_pos _ _ _ _ _ ?_ (fun m => (hmiss m).le) hclut (fun _ => none) (mem_Match.2 ⟨fun _ _ => rfl, fun _ _ h => by simp at h, fun _ _ _ h => by simp at h⟩) fun m _ => hmiss m
    intro m z
    unfold floored
    split
    · exact le_max_of_le_left (likOf_nonneg he cfg.mdThr hp m z)
    · exact le_rfl
  · obtain ⟨e, -, rfl⟩ := List.mem_map.1 hy
    exact div_pos (hi _ _ hmap) (hi _ _ hpost)

/-! ### C183: the empty-set strategy -/

/-- **C183**, the full claim: with the empty-set strategy (no evaluation points), the weight of a particle is multiplied by the likelihood that all measurements are clutter times the exponential of the difference of the
expected numbers of landmarks; also for a particle whose map is empty. -/
def C183_full (s : Sensor T Z ℝ) (thr birthW : ℝ) (Zs : List Z) (env : WEnv T Zs.length) (map : List (Comp T ℝ)) (w : ℝ) (result : Option ℝ) : Prop :=
  result = some (w * ((∏ z, env.clut z) / env.integral * Real.exp (expected (updateMap s thr birthW map Zs).map - expected map)))

theorem components_zero {nZ : Nat} (L : Fin 0 → Fin nZ → ℝ) (clut : Fin nZ → ℝ) (pd : Fin 0 → ℝ) (integral : ℝ) (murty : List (Fin 0) → List (Fin nZ) → Option ℝ) (fuel ncc : Nat)
    (lab : Fin 0 ⊕ Fin nZ → Nat) (hc : IsComponents L 0 ncc lab) (hcl : ∀ z, 0 ≤ clut z) (hf : 2 ^ 32 ≤ fuel) :
    rfsLik L pd clut integral murty fuel ncc lab = some ((∏ z, clut z) / integral) := by
  have hv := C42_value_partial L pd clut integral murty fuel ncc lab hc (fun m => m.elim0) (fun m => m.elim0) hcl (fun R C hR => by obtain ⟨m, -⟩ := hR; exact m.elim0) hf
  rw [total_zero _ _ _ (fun m => m.elim0)] at hv
  simpa using hv

/-- C183 (partial): the claim for a particle with a map of which no Gaussian of sufficient weight is in view, if the number of evaluation points is not zero. Missing: zero evaluation points, and empty maps (`C183_violated`). -/
theorem C183_no_points_partial (cfg : WCfg) (minW : ℝ) (s : Sensor T Z ℝ) (thr birthW : ℝ) (Zs : List Z) (env : WEnv T Zs.length) (hcl0 : ∀ z, 0 ≤ env.clut z) (tiny : ℝ)
    (srt : List (Comp T ℝ) → List (Comp T ℝ)) (hs : IsSort srt) (map : List (Comp T ℝ)) (w : ℝ) (hcl : cfg.cluster = some false) (hw : cfg.minW = some minW) (hc : cfg.count ≠ 0) (hm : map ≠ [])
    (hview : ∀ c ∈ (updateMap s thr birthW map Zs).map, minW ≤ c.w → env.pd c.lm ≤ 0) (murty : ∀ n, List (Fin n) → List (Fin Zs.length) → Option ℝ) (fuel ncc : Nat)
    (lab : ∀ n, Fin n ⊕ Fin Zs.length → Nat) (hcomp : IsComponents (fun (_ : Fin 0) (_ : Fin Zs.length) => (0 : ℝ)) 0 ncc (lab 0)) (hf : 2 ^ 32 ≤ fuel) :
    C183_full s thr birthW Zs env map w (newWeight cfg s thr birthW Zs env tiny srt murty fuel ncc lab map w) := by
  have h0 : nEval cfg.count (updateMap s thr birthW map Zs).map.length ≠ 0 := by
    have : (updateMap s thr birthW map Zs).map.length ≠ 0 := by
      have h1 : map.length ≠ 0 := by simpa using hm
      simp only [PHDProps.updateMap_map, List.length_append, List.length_map]
      omega
    unfold nEval
    split_ifs <;> omega
  obtain ⟨rest, a1, a2, -⟩ := C182_points minW env.pd cfg.count srt hs _ h0
  have hnil : pick minW env.pd (nEval cfg.count (updateMap s thr birthW map Zs).map.length) 0 (srt (updateMap s thr birthW map Zs).map) = [] := by
    rw [List.eq_nil_iff_forall_not_mem]
    intro e he
    exact absurd (a2 e he).2 (not_lt.2 (hview e (a1.symm.subset (by simp [he])) (a2 e he).1))
  unfold C183_full
  rw [importance_eq cfg s thr birthW Zs env tiny srt hs murty fuel ncc lab map w minW hcl hw h0]
  have key : ∀ pts : List (Comp T ℝ), pts = [] → ((rfsLik (fun (m : Fin pts.length) z => likOf env cfg.mdThr pts[m].lm z) (fun m => env.pd pts[m].lm) env.clut env.integral (murty _) fuel ncc (lab _)).map
      fun g => w * factor env tiny g map (updateMap s thr birthW map Zs).map pts) =
        some (w * ((∏ z, env.clut z) / env.integral * Real.exp (expected (updateMap s thr birthW map Zs).map - expected map))) := by
    rintro _ rfl
    have e : (fun (m : Fin ([] : List (Comp T ℝ)).length) z => likOf env cfg.mdThr ([] : List (Comp T ℝ))[m].lm z) = fun (_ : Fin 0) (_ : Fin Zs.length) => (0 : ℝ) := by
      funext m; exact m.elim0
    rw [e]
    erw [components_zero (fun (_ : Fin 0) (_ : Fin Zs.length) => (0 : ℝ)) env.clut _ env.integral (murty 0) fuel ncc (lab 0) hcomp hcl0 hf]
    simp [factor]
  exact key _ hnil

/-- With no evaluation points configured, or with an empty map, the weight is replaced by a constant: neither the old weight nor the scan matter. -/
theorem C183_constant (cfg : WCfg) (s : Sensor T Z ℝ) (thr birthW : ℝ) (Zs : List Z) (env : WEnv T Zs.length) (tiny : ℝ) (srt : List (Comp T ℝ) → List (Comp T ℝ))
    (murty : ∀ n, List (Fin n) → List (Fin Zs.length) → Option ℝ) (fuel ncc : Nat) (lab : ∀ n, Fin n ⊕ Fin Zs.length → Nat) (map : List (Comp T ℝ)) (w : ℝ) (hcl : cfg.cluster = some false)
    (h : cfg.count = 0 ∨ map = []) : newWeight cfg s thr birthW Zs env tiny srt murty fuel ncc lab map w = some tiny := by
  unfold newWeight
  rw [hcl, Option.bind_some, if_neg (by simp)]
  unfold importance
  rw [if_pos]
  rcases h with h | h
  · rw [h]
    simp [nEval]
  · subst h
    simp only [PHDProps.updateMap_map, List.map_nil, List.flatMap_nil, List.append_nil, List.length_nil]
    unfold nEval
    split_ifs <;> omega

/-- **C183 is violated** for all models, maps and scans: for two different weights at least one of the results is wrong. -/
theorem C183_violated (cfg : WCfg) (s : Sensor T Z ℝ) (thr birthW : ℝ) (Zs : List Z) (env : WEnv T Zs.length) (hpos : 0 < env.integral ∧ ∀ z, 0 < env.clut z) (tiny : ℝ)
    (srt : List (Comp T ℝ) → List (Comp T ℝ)) (murty : ∀ n, List (Fin n) → List (Fin Zs.length) → Option ℝ) (fuel ncc : Nat) (lab : ∀ n, Fin n ⊕ Fin Zs.length → Nat) (map : List (Comp T ℝ))
    (w w' : ℝ) (hw : w ≠ w') (hcl : cfg.cluster = some false) (h : cfg.count = 0 ∨ map = []) :
    ¬ (C183_full s thr birthW Zs env map w (newWeight cfg s thr birthW Zs env tiny srt murty fuel ncc lab map w) ∧
      C183_full s thr birthW Zs env map w' (newWeight cfg s thr birthW Zs env tiny srt murty fuel ncc lab map w')) := by
  rintro ⟨h1, h2⟩
  unfold C183_full at h1 h2
  rw [C183_constant cfg s thr birthW Zs env tiny srt murty fuel ncc lab map _ hcl h, Option.some.injEq] at h1 h2
  rw [h1] at h2
  have : 0 < (∏ z, env.clut z) / env.integral * Real.exp (expected (updateMap s thr birthW map Zs).map - expected map) :=
    mul_pos (div_pos (Finset.prod_pos fun z _ => hpos.2 z) hpos.1) (Real.exp_pos _)
  exact hw (mul_right_cancel₀ this.ne' h2)

/-- C183: with the empty-set strategy all particles have the same weight after every update (without resampling), whatever was measured. -/
theorem C183_uniform {S : Type*} (tiny : ℝ) (ht : 0 < tiny) (P : List (PF.Part S ℝ)) (h : ∀ p ∈ P, p.w = tiny) : ∀ p ∈ PF.normalizeWeights P, p.w = 1 / P.length := by
  intro p hp
  obtain ⟨q, hq, rfl⟩ := List.mem_map.1 hp
  have e : (P.map PF.Part.w).sum = P.length * tiny := by
    rw [List.map_congr_left h]
    simp
  simp only [e, h q hq]
  have : (P.length : ℝ) ≠ 0 := by
    have := List.length_pos_of_mem hq
    exact_mod_cast this.ne'
  field_simp

/-! ### C184: the cluster process -/

/-- **C184**, the full claim: with the cluster process, the weight of a particle is multiplied by `exp(-Σ Pd w) ∏_z (κ(z) + Σ Pd w g(z))`, the likelihood of the scan under the intensity of its map before the
update (times a constant that is the same for all particles). -/
def C184_full (s : Sensor T Z ℝ) (thr : ℝ) (Zs : List Z) (map : List (Comp T ℝ)) (w : ℝ) (result : Option ℝ) : Prop :=
  result = some (w * (Real.exp (-(map.map fun c => (if (s.pd c.lm).2 then 1 else (s.pd c.lm).1) * c.w).sum) *
    (Zs.map fun z => s.clutter z Zs.length + (map.map fun c => PHDProps.explains s thr c z).sum).prod))

/-- C184 (partial): the value computed for a particle with a map; the exponent is the expected number of landmarks, with the opposite sign. Missing: the exponent, and particles with empty maps (`C184_violated`,
`C184_empty_violated`). -/
theorem C184_value_partial (cfg : WCfg) (s : Sensor T Z ℝ) (thr birthW : ℝ) (Zs : List Z) (env : WEnv T Zs.length) (tiny : ℝ) (srt : List (Comp T ℝ) → List (Comp T ℝ))
    (murty : ∀ n, List (Fin n) → List (Fin Zs.length) → Option ℝ) (fuel ncc : Nat) (lab : ∀ n, Fin n ⊕ Fin Zs.length → Nat) (map : List (Comp T ℝ)) (w : ℝ) (hcl : cfg.cluster = some true) (hm : map ≠ []) :
    newWeight cfg s thr birthW Zs env tiny srt murty fuel ncc lab map w =
      some (w * (Real.exp (tiny + expected map) * (Zs.map fun z => s.clutter z Zs.length + (map.map fun c => PHDProps.explains s thr c z).sum).prod)) := by
  unfold newWeight
  rw [hcl, Option.bind_some, if_pos rfl]
  unfold cluster
  rw [if_neg (by simpa using hm), foldl_add_eq Comp.w, foldl_mul_eq (fun z => colSum s thr map Zs.length z), one_mul, mul_comm]
  have : (fun z => colSum s thr map Zs.length z) = fun z => s.clutter z Zs.length + (map.map fun c => PHDProps.explains s thr c z).sum := by
    funext z
    rw [PHD.colSum_eq]
    simp only [PHDProps.entry_eq]
  rw [this]
  rfl

/-- C184 (partial): the ratio of the weights of two particles is as claimed if the sums of `(1 + Pd) w` over their maps are equal. -/
theorem C184_ratio_partial (cfg : WCfg) (s s' : Sensor T Z ℝ) (thr birthW : ℝ) (Zs : List Z) (env env' : WEnv T Zs.length) (tiny : ℝ) (srt : List (Comp T ℝ) → List (Comp T ℝ))
    (murty : ∀ n, List (Fin n) → List (Fin Zs.length) → Option ℝ) (fuel ncc : Nat) (lab : ∀ n, Fin n ⊕ Fin Zs.length → Nat) (map map' : List (Comp T ℝ)) (w w' : ℝ) (hcl : cfg.cluster = some true)
    (hm : map ≠ []) (hm' : map' ≠ [])
    (hsum : (map.map fun c => (if (s.pd c.lm).2 then 1 else (s.pd c.lm).1) * c.w).sum + expected map = (map'.map fun c => (if (s'.pd c.lm).2 then 1 else (s'.pd c.lm).1) * c.w).sum + expected map') :
    ∃ k, 0 < k ∧ (∃ v, newWeight cfg s thr birthW Zs env tiny srt murty fuel ncc lab map w = some (k * v) ∧ C184_full s thr Zs map w (some v)) ∧
      ∃ v, newWeight cfg s' thr birthW Zs env' tiny srt murty fuel ncc lab map' w' = some (k * v) ∧ C184_full s' thr Zs map' w' (some v) := by
  refine ⟨Real.exp (tiny + ((map.map fun c => (if (s.pd c.lm).2 then 1 else (s.pd c.lm).1) * c.w).sum + expected map)), Real.exp_pos _, ⟨_, ?_, rfl⟩, ⟨_, ?_, rfl⟩⟩
  · rw [C184_value_partial cfg s thr birthW Zs env tiny srt murty fuel ncc lab map w hcl hm]
    congr 1
    have : Real.exp (tiny + expected map) = Real.exp (tiny + ((map.map fun c => (if (s.pd c.lm).2 then 1 else (s.pd c.lm).1) * c.w).sum + expected map)) *
        Real.exp (-(map.map fun c => (if (s.pd c.lm).2 then 1 else (s.pd c.lm).1) * c.w).sum) := by
      rw [← Real.exp_add]; congr 1; ring
    rw [this]; ring
  · rw [C184_value_partial cfg s' thr birthW Zs env' tiny srt murty fuel ncc lab map' w' hcl hm', hsum]
    congr 1
    have : Real.exp (tiny + expected map') = Real.exp (tiny + ((map'.map fun c => (if (s'.pd c.lm).2 then 1 else (s'.pd c.lm).1) * c.w).sum + expected map')) *
        Real.exp (-(map'.map fun c => (if (s'.pd c.lm).2 then 1 else (s'.pd c.lm).1) * c.w).sum) := by
      rw [← Real.exp_add]; congr 1; ring
    rw [this]; ring

/-- **C184 is violated**, for every model and scan: landmarks out of view do not matter to the scan, yet a landmark of weight `a` that cannot be seen multiplies the weight by `e^a`. -/
theorem C184_violated (cfg : WCfg) (s : Sensor T Z ℝ) (thr birthW : ℝ) (Zs : List Z) (env : WEnv T Zs.length) (tiny : ℝ) (srt : List (Comp T ℝ) → List (Comp T ℝ))
    (murty : ∀ n, List (Fin n) → List (Fin Zs.length) → Option ℝ) (fuel ncc : Nat) (lab : ∀ n, Fin n ⊕ Fin Zs.length → Nat) (map : List (Comp T ℝ)) (w : ℝ) (hcl : cfg.cluster = some true) (hm : map ≠ [])
    (far : Comp T ℝ) (hfar : s.pd far.lm = (0, false)) :
    (∀ v, C184_full s thr Zs (far :: map) w (some v) ↔ C184_full s thr Zs map w (some v)) ∧
    ∃ v, newWeight cfg s thr birthW Zs env tiny srt murty fuel ncc lab map w = some v ∧
      newWeight cfg s thr birthW Zs env tiny srt murty fuel ncc lab (far :: map) w = some (Real.exp far.w * v) := by
  have hx : ∀ z, PHDProps.explains s thr far z = 0 := by
    intro z
    unfold PHDProps.explains
    simp [hfar]
  constructor
  · intro v
    unfold C184_full
    simp [hx, hfar]
  · refine ⟨_, C184_value_partial cfg s thr birthW Zs env tiny srt murty fuel ncc lab map w hcl hm, ?_⟩
    rw [C184_value_partial cfg s thr birthW Zs env tiny srt murty fuel ncc lab (far :: map) w hcl (by simp)]
    congr 1
    have e : Real.exp (tiny + expected (far :: map)) = Real.exp far.w * Real.exp (tiny + expected map) := by
      rw [← Real.exp_add]
      unfold expected
      rw [List.map_cons, List.sum_cons]
      congr 1; ring
    rw [e]
    simp only [List.map_cons, List.sum_cons, hx, zero_add]
    ring

/-- **C184 is violated** for an empty map as well: the scan has to be clutter, but the weight is not changed. -/
theorem C184_empty_violated (cfg : WCfg) (s : Sensor T Z ℝ) (thr birthW : ℝ) (Zs : List Z) (env : WEnv T Zs.length) (tiny : ℝ) (srt : List (Comp T ℝ) → List (Comp T ℝ))
    (murty : ∀ n, List (Fin n) → List (Fin Zs.length) → Option ℝ) (fuel ncc : Nat) (lab : ∀ n, Fin n ⊕ Fin Zs.length → Nat) (w : ℝ) (hcl : cfg.cluster = some true) (hw : w ≠ 0)
    (hne : (Zs.map fun z => s.clutter z Zs.length).prod ≠ 1) :
    newWeight cfg s thr birthW Zs env tiny srt murty fuel ncc lab [] w = some w ∧ ¬ C184_full s thr Zs [] w (newWeight cfg s thr birthW Zs env tiny srt murty fuel ncc lab [] w) := by
  have e : newWeight cfg s thr birthW Zs env tiny srt murty fuel ncc lab [] w = some w := by
    unfold newWeight
    rw [hcl, Option.bind_some, if_pos rfl]
    simp [cluster]
  refine ⟨e, ?_⟩
  rw [e]
  unfold C184_full
  simp only [List.map_nil, List.sum_nil, neg_zero, Real.exp_zero, one_mul, add_zero, Option.some.injEq]
  intro h
  exact hne (mul_left_cancel₀ hw (h.symm.trans (mul_one w).symm))

/-- One landmark of weight 1 seen with probability 1/2, one measurement that it explains with likelihood 2, clutter intensity 1/4. -/
example (env : WEnv Unit [()].length) (srt : List (Comp Unit ℝ) → List (Comp Unit ℝ)) (murty : ∀ n, List (Fin n) → List (Fin 1) → Option ℝ) (lab : ∀ n, Fin n ⊕ Fin 1 → Nat) :
    newWeight ⟨8, some (1 / 10), 3, some true⟩ ⟨fun _ => (1 / 2, false), fun _ _ => ((), 2, 0), fun _ _ => 1 / 4⟩ 3 (1 / 100) [()] env 0 srt murty 1 1 lab [⟨(), 1, 0⟩] 6 =
      some (6 * (Real.exp (0 + expected [(⟨(), 1, 0⟩ : Comp Unit ℝ)]) * ([()].map fun _ => 1 / 4 + ([(⟨(), 1, 0⟩ : Comp Unit ℝ)].map fun c =>
        PHDProps.explains (⟨fun _ => (1 / 2, false), fun _ _ => ((), 2, 0), fun _ _ => 1 / 4⟩ : Sensor Unit Unit ℝ) 3 c ()).sum).prod)) :=
  C184_value_partial _ _ _ _ [()] env 0 srt murty 1 1 lab _ 6 rfl (by simp)

/-! ### C185: the configuration set by the constructor -/

/-- **C185**, the full claim: with the configuration left by the constructor, a weight is computed, without reading memory that was never written, whenever one is with both of the two members set. -/
def C185_full (T Z : Type*) : Prop :=
  ∀ (s : Sensor T Z ℝ) (thr birthW : ℝ) (Zs : List Z) (env : WEnv T Zs.length) (tiny : ℝ) (srt : List (Comp T ℝ) → List (Comp T ℝ)) (murty : ∀ n, List (Fin n) → List (Fin Zs.length) → Option ℝ)
    (fuel ncc : Nat) (lab : ∀ n, Fin n ⊕ Fin Zs.length → Nat) (map : List (Comp T ℝ)) (w minW : ℝ) (b : Bool),
      (newWeight { defaultCfg with minW := some minW, cluster := some b } s thr birthW Zs env tiny srt murty fuel ncc lab map w).isSome →
        (newWeight defaultCfg s thr birthW Zs env tiny srt murty fuel ncc lab map w).isSome

/-- **C185 is violated** on every input: `useClusterProcess_` is read but never set. -/
theorem C185_undefined (s : Sensor T Z ℝ) (thr birthW : ℝ) (Zs : List Z) (env : WEnv T Zs.length) (tiny : ℝ) (srt : List (Comp T ℝ) → List (Comp T ℝ))
    (murty : ∀ n, List (Fin n) → List (Fin Zs.length) → Option ℝ) (fuel ncc : Nat) (lab : ∀ n, Fin n ⊕ Fin Zs.length → Nat) (map : List (Comp T ℝ)) (w : ℝ) :
    newWeight defaultCfg s thr birthW Zs env tiny srt murty fuel ncc lab map w = none := rfl

/-- **C185 is violated**, also if `useClusterProcess_` is set to false: the least weight of an evaluation point was not set, and is read for every particle that has a map. -/
theorem C185_weight_undefined (s : Sensor T Z ℝ) (thr birthW : ℝ) (Zs : List Z) (env : WEnv T Zs.length) (tiny : ℝ) (srt : List (Comp T ℝ) → List (Comp T ℝ))
    (murty : ∀ n, List (Fin n) → List (Fin Zs.length) → Option ℝ) (fuel ncc : Nat) (lab : ∀ n, Fin n ⊕ Fin Zs.length → Nat) (map : List (Comp T ℝ)) (w : ℝ) (hm : map ≠ []) :
    newWeight { defaultCfg with cluster := some false } s thr birthW Zs env tiny srt murty fuel ncc lab map w = none := by
  unfold newWeight
  simp only [Option.bind_some, Bool.false_eq_true, if_false]
  unfold importance
  rw [if_neg]
  · rfl
  · have h1 : map.length ≠ 0 := by simpa using hm
    have h2 : (updateMap s thr birthW map Zs).map.length ≠ 0 := by
      simp only [PHDProps.updateMap_map, List.length_append, List.length_map]
      omega
    simp only [defaultCfg]
    unfold nEval
    split_ifs <;> omega

/-- **C185 is violated**. -/
theorem C185_violated (T Z : Type*) [Inhabited T] : ¬ C185_full T Z := by
  intro h
  have := h ⟨fun _ => (0, false), fun _ _ => (default, 0, 0), fun _ _ => 0⟩ 0 0 [] ⟨fun _ => 0, fun _ _ => 0, fun _ _ => (0, 0), fun _ => 0, 0⟩ 0 id (fun _ _ _ => none) 0 0 (fun _ _ => 0) [] 1 0 true rfl
  exact absurd this (by simp [C185_undefined])

/-- C185 (partial): once both members are set, the weight is defined whenever `rfsMeasurementLikelihood` is. Missing: a filter used with the configuration of the constructor. -/
theorem C185_defined_partial (cfg : WCfg) (s : Sensor T Z ℝ) (thr birthW : ℝ) (Zs : List Z) (env : WEnv T Zs.length) (tiny : ℝ) (srt : List (Comp T ℝ) → List (Comp T ℝ))
    (murty : ∀ n, List (Fin n) → List (Fin Zs.length) → Option ℝ) (fuel ncc : Nat) (lab : ∀ n, Fin n ⊕ Fin Zs.length → Nat) (map : List (Comp T ℝ)) (w : ℝ) (hc : cfg.cluster.isSome) (hw : cfg.minW.isSome)
    (hlik : ∀ pts : List (Comp T ℝ), (rfsLik (lTab env cfg.mdThr pts) (fun m => env.pd pts[m].lm) env.clut env.integral (murty _) fuel ncc (lab _)).isSome) :
    (newWeight cfg s thr birthW Zs env tiny srt murty fuel ncc lab map w).isSome := by
  obtain ⟨b, hb⟩ := Option.isSome_iff_exists.1 hc
  obtain ⟨mw, hmw⟩ := Option.isSome_iff_exists.1 hw
  unfold newWeight
  rw [hb, Option.bind_some]
  split_ifs
  · rfl
  unfold importance
  rw [hmw, Option.bind_some]
  split_ifs
  · rfl
  simpa using hlik _

end PHDWProps
end RFS
