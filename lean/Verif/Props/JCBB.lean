import Verif.Lemmas.JCBB
import Mathlib.Data.Rat.Defs
import Mathlib.Algebra.Field.Rat
import Mathlib.Algebra.Order.Ring.Rat
import Mathlib.Tactic.NormNum

/-!
Properties C39 and C71: JCBB data association.
-/

set_option linter.unusedSectionVars false

namespace RFS
namespace JCBBProps
open JCBB

variable {K : Type*} [Field K] [LinearOrder K]

/-- C39 (partial): in the result no landmark is assigned to two different measurements other than the first one, landmark numbers are
valid, and measurements beyond the last are unassociated; whatever the order in which the queue delivers nodes. Missing: the first
measurement (`C39_violated`). -/
theorem C39_one_to_one_partial (gate : Path → Nat → Option K) (nZ nL : Nat) (big : K) (hz : 0 < nZ) (s : St K) (h : Run gate nZ nL big s)
    (f : Nat → Option Nat) (hf : result s = some f) :
    (∀ z m, f z = some m → m < nL ∧ z < nZ) ∧ ∀ z1 z2 m, 1 ≤ z1 → 1 ≤ z2 → f z1 = some m → f z2 = some m → z1 = z2 := by
  have hinv := run_inv gate nZ nL big hz s h
  unfold result at hf
  cases hb : s.best with
  | none => rw [hb] at hf; simp at hf
  | some p =>
    rw [hb] at hf
    simp only [Option.map_some, Option.some.injEq] at hf
    subst hf
    obtain ⟨hc, hl⟩ := hinv.best p hb
    refine ⟨?_, ?_⟩
    · intro z m hzm
      obtain ⟨q, r, rfl, rfl⟩ := (hypothesis_eq p z m).1 hzm
      refine ⟨?_, by simp at hl; omega⟩
      clear hb hinv hl hzm
      induction q with
      | nil =>
        cases hc with
        | assoc _ _ _ hm _ _ => exact hm
      | cons a q ih =>
        cases hc with
        | out _ h => exact ih h
        | assoc _ _ h _ _ _ => exact ih h
    · intro z1 z2 m h1 h2 e1 e2
      have hnd := compat_nodup gate nL p hc
      by_contra hne
      have key : ∀ z1 z2, 1 ≤ z1 → z1 < z2 → hypothesis p z1 = some m → hypothesis p z2 = some m → False := by
        intro z1 z2 h1 hlt e1 e2
        obtain ⟨q1, r1, hp1, l1⟩ := (hypothesis_eq p z1 m).1 e1
        obtain ⟨q2, r2, hp2, l2⟩ := (hypothesis_eq p z2 m).1 e2
        -- z2 is nearer to the head
        have hsuf : ∃ t, r2 = t ++ some m :: r1 := by
          have h3 : q2 ++ some m :: r2 = q1 ++ some m :: r1 := by rw [← hp2, ← hp1]
          rcases List.append_eq_append_iff.1 h3 with ⟨a, ha1, ha2⟩ | ⟨a, ha1, ha2⟩
          · cases a with
            | nil =>
              simp only [List.nil_append, List.cons.injEq, true_and] at ha2
              rw [ha2] at l2
              omega
            | cons b a =>
              simp only [List.cons_append, List.cons.injEq] at ha2
              exact ⟨a, ha2.2⟩
          · exfalso
            have hlen := congrArg List.length h3
            have hlen2 := congrArg List.length ha1
            simp only [List.length_append, List.length_cons] at hlen hlen2
            omega
        obtain ⟨t, rfl⟩ := hsuf
        have hr1 : r1 ≠ [] := by rintro rfl; simp at l1; omega
        obtain ⟨b, hb2⟩ : ∃ b, r1 = r1.dropLast ++ [b] := ⟨r1.getLast hr1, (List.dropLast_append_getLast hr1).symm⟩
        have hu : used p = (q2.filterMap id) ++ m :: (t.filterMap id ++ m :: r1.dropLast.filterMap id) := by
          unfold used
          rw [hp2, hb2]
          have : q2 ++ some m :: (t ++ some m :: (r1.dropLast ++ [b])) = (q2 ++ some m :: (t ++ some m :: r1.dropLast)) ++ [b] := by simp
          rw [this, List.dropLast_concat]
          simp
        rw [hu, List.nodup_append] at hnd
        have := hnd.2.1
        rw [List.nodup_cons] at this
        exact this.1 (by simp)
      rcases Nat.lt_or_gt_of_ne hne with hlt | hlt
      · exact key z1 z2 h1 hlt e1 e2
      · exact key z2 z1 h2 hlt e2 e1

/-- Every pass of the loop lowers the total weight of the queue: the search ends after at most `(nL+2)^nZ` passes. -/
theorem C39_terminates (gate : Path → Nat → Option K) (nZ nL : Nat) (big : K) (hz : 0 < nZ) (s s' : St K) (h : Run gate nZ nL big s)
    (hs : Step gate nZ nL s s') : (s'.opn.map (wt nZ nL)).sum < (s.opn.map (wt nZ nL)).sum := by
  have hinv := run_inv gate nZ nL big hz s h
  cases hs with
  | mk pre post p ho =>
    have hl := (hinv.opn p (by rw [ho]; simp)).2
    have h1 := foldl_wt gate nZ nL p (List.range nL) { s with opn := pre ++ post }
    rw [List.length_range] at h1
    have h2 : ((branch gate nZ nL p { s with opn := pre ++ post }).opn.map (wt nZ nL)).sum
        ≤ (((List.range nL).foldl (tryLmk gate nZ p) { s with opn := pre ++ post }).opn.map (wt nZ nL)).sum + (nL + 2) ^ (nZ - p.length - 1) := by
      unfold branch tryOutlier
      generalize (List.range nL).foldl (tryLmk gate nZ p) { s with opn := pre ++ post } = s1
      simp only
      have : ((if p.length + 1 < nZ then (none :: p) :: s1.opn else s1.opn).map (wt nZ nL)).sum
          ≤ (s1.opn.map (wt nZ nL)).sum + (nL + 2) ^ (nZ - p.length - 1) := by
        split
        · simp only [List.map_cons, List.sum_cons, wt, List.length_cons]
          rw [show nZ - (p.length + 1) = nZ - p.length - 1 by omega]
          omega
        · omega
      split <;> exact this
    have h3 : wt nZ nL p = (nL + 2) * (nL + 2) ^ (nZ - p.length - 1) := by
      unfold wt
      rw [← Nat.pow_succ', show (nZ - p.length - 1).succ = nZ - p.length by omega]
    have h4 : 0 < (nL + 2) ^ (nZ - p.length - 1) := Nat.pow_pos (by omega)
    rw [ho]
    simp only [List.map_append, List.map_cons, List.sum_append, List.sum_cons] at h1 ⊢
    have h5 : (nL + 2) * (nL + 2) ^ (nZ - p.length - 1) = nL * (nL + 2) ^ (nZ - p.length - 1) + 2 * (nL + 2) ^ (nZ - p.length - 1) := by ring
    rw [h3, h5]
    omega

/-- One landmark, unit variances, measurements each at distance one from the predicted measurement: the joint distance is the number of
associations, and the gate (95 percent of chi-square with one degree of freedom) lies at 3.84. -/
def gate1 : Path → Nat → Option Rat := fun p _ =>
  let d : Rat := 1 + (p.filterMap id).length
  if d < 384 / 100 then some d else none

deriving instance DecidableEq for St

/-- Two measurements are assigned to the only landmark. -/
theorem C39_violated : ∃ s f, Run gate1 2 1 1000 s ∧ s.opn = [] ∧ result s = some f ∧ f 0 = some 0 ∧ f 1 = some 0 := by
  have r0 : Run gate1 2 1 1000 (start 1000) := Run.start
  have r1 := Run.step _ _ r0 (Step.mk (start 1000) [] [] [] rfl)
  have e1 : branch gate1 2 1 [] { start (1000 : Rat) with opn := [] ++ [] } = ⟨[[none], [some 0]], 1, 1, some [some 0]⟩ := by decide +kernel
  rw [e1] at r1
  have r2 := Run.step _ _ r1 (Step.mk _ [[none]] [] [some 0] rfl)
  have e2 : branch gate1 2 1 [some 0] ⟨[[none]] ++ [], 1, (1 : Rat), some [some 0]⟩ = ⟨[[none]], 1, 2, some [some 0, some 0]⟩ := by decide +kernel
  have r2' : Run gate1 2 1 1000 ⟨[[none]], 1, 2, some [some 0, some 0]⟩ := by rw [← e2]; exact r2
  have r3 := Run.step _ _ r2' (Step.mk _ [] [] [none] rfl)
  have e3 : branch gate1 2 1 [none] ⟨[] ++ [], 1, (2 : Rat), some [some 0, some 0]⟩ = ⟨[], 1, 2, some [some 0, some 0]⟩ := by decide +kernel
  have r3' : Run gate1 2 1 1000 ⟨[], 1, 2, some [some 0, some 0]⟩ := by rw [← e3]; exact r3
  exact ⟨_, hypothesis [some 0, some 0], r3', rfl, rfl, rfl, rfl⟩

/-- When no pairing passes the gate, the constructor follows a null pointer. -/
theorem C39_null : ∃ s, Run (fun _ _ => (none : Option Rat)) 1 1 1000 s ∧ s.opn = [] ∧ result s = none := by
  have r1 := Run.step _ _ (Run.start (gate := fun _ _ => (none : Option Rat)) (nZ := 1) (nL := 1) (big := 1000)) (Step.mk (start 1000) [] [] [] rfl)
  exact ⟨_, r1, by decide +kernel, by rfl⟩

/-- Number of associations of a hypothesis, the first measurement left out. -/
def count (p : Path) : Nat := (used p).length

/-- C71 (partial): when the search ends, no hypothesis that passes every gate and ends in an association has more associations than the best
count, the first measurement not being counted for hypotheses of two measurements or more. Missing: the first measurement, the hypothesis
that is returned (`C71_violated_count`), and the choice of the smallest distance (`C71_violated_distance`). -/
theorem C71_count_partial (gate : Path → Nat → Option K) (nZ nL : Nat) (big : K) (s : St K) (h : Run gate nZ nL big s) (hend : s.opn = [])
    (p : Path) (m : Nat) (hc : Compat gate nL (some m :: p)) (hl : p.length < nZ) : count p + 1 ≤ s.nBest := by
  rcases run_cover gate nZ nL big s h p m hc hl with hb | ⟨q, hq, _⟩
  · exact hb
  · rw [hend] at hq; simp at hq

/-- The hypotheses are there: two measurements, two landmarks. -/
example : Compat gate1 2 [some 1, some 0] :=
  Compat.assoc _ _ (Compat.assoc _ _ Compat.nil (by norm_num) (by simp [used]) (by decide +kernel)) (by norm_num) (by simp [used]) (by decide +kernel)

/-- One measurement, two landmarks at distances 1 and 2: the landmark at distance 2 is chosen. -/
theorem C71_violated_distance : ∃ s f, Run (fun _ m => some ((m : Rat) + 1)) 1 2 1000 s ∧ s.opn = [] ∧ result s = some f ∧ f 0 = some 1 := by
  have r1 := Run.step _ _ (Run.start (gate := fun _ m => some ((m : Rat) + 1)) (nZ := 1) (nL := 2) (big := 1000)) (Step.mk (start 1000) [] [] [] rfl)
  have e1 : branch (fun _ m => some ((m : Rat) + 1)) 1 2 [] { start (1000 : Rat) with opn := [] ++ [] } = ⟨[], 1, 2, some [some 1]⟩ := by decide +kernel
  rw [e1] at r1
  exact ⟨_, hypothesis [some 1], r1, rfl, rfl, rfl⟩

/-- One measurement exactly at the predicted measurement of the only landmark: it is declared an outlier. -/
theorem C71_violated_count : ∃ s f, Run (fun _ _ => some (0 : Rat)) 1 1 1000 s ∧ s.opn = [] ∧ result s = some f ∧ f 0 = none := by
  have r1 := Run.step _ _ (Run.start (gate := fun _ _ => some (0 : Rat)) (nZ := 1) (nL := 1) (big := 1000)) (Step.mk (start 1000) [] [] [] rfl)
  have e1 : branch (fun _ _ => some (0 : Rat)) 1 1 [] { start (1000 : Rat) with opn := [] ++ [] } = ⟨[], 1, 0, some [none]⟩ := by decide +kernel
  rw [e1] at r1
  exact ⟨_, hypothesis [none], r1, rfl, rfl, rfl⟩

/-- Joint distance of a hypothesis: that of its latest association together with the ones before; 0 if there is none. -/
def jointDist (gate : Path → Nat → Option K) (p : Path) : K :=
  match p.dropWhile (fun a => a.isNone) with
  | some m :: r => (gate r m).getD 0
  | _ => 0

theorem nodeDist_eq (gate : Path → Nat → Option K) (p : Path) : nodeDist gate p = jointDist gate p := by
  induction p with
  | nil => rfl
  | cons a p ih =>
    cases a with
    | none => simpa [nodeDist, jointDist] using ih
    | some m => simp [nodeDist, jointDist]

/-- **C71**, what the code does instead: when the search ends, the distance of the hypothesis that is reported is the largest, not the smallest, among the hypotheses of the best count. -/
theorem C71_violated_largest (gate : Path → Nat → Option K) (nZ nL : Nat) (big : K) (s : St K) (h : Run gate nZ nL big s) (hend : s.opn = [])
    (b : Path) (hb : s.best = some b) (p : Path) (m : Nat) (hc : Compat gate nL (some m :: p)) (hl : p.length < nZ) (hn : count p + 1 = s.nBest) :
    jointDist gate (some m :: p) ≤ jointDist gate b := by
  have hg : (gate p m).isSome := by cases hc with | assoc _ _ _ _ _ hg => exact hg
  obtain ⟨d, hd⟩ := Option.isSome_iff_exists.1 hg
  have e : jointDist gate (some m :: p) = d := by simp [jointDist, hd]
  rw [e, ← nodeDist_eq, ← run_dist gate nZ nL big s h b hb]
  rcases run_below gate nZ nL big s h p m d hc hl hd with (hlt | ⟨_, hle⟩) | ⟨q, hq, _⟩
  · unfold count at hn; omega
  · exact hle
  · rw [hend] at hq; simp at hq

/-- The hypotheses are met: one measurement, landmarks at distances 1 and 2. -/
example : ∃ s b, Run (fun _ m => some ((m : Rat) + 1)) 1 2 1000 s ∧ s.opn = [] ∧ s.best = some b ∧ count [] + 1 = s.nBest ∧ Compat (fun _ m => some ((m : Rat) + 1)) 2 [some 0] ∧
    jointDist (fun _ m => some ((m : Rat) + 1)) [some 0] = 1 ∧ jointDist (fun _ m => some ((m : Rat) + 1)) b = 2 := by
  have r1 := Run.step _ _ (Run.start (gate := fun _ m => some ((m : Rat) + 1)) (nZ := 1) (nL := 2) (big := 1000)) (Step.mk (start 1000) [] [] [] rfl)
  have e1 : branch (fun _ m => some ((m : Rat) + 1)) 1 2 [] { start (1000 : Rat) with opn := [] ++ [] } = ⟨[], 1, 2, some [some 1]⟩ := by decide +kernel
  rw [e1] at r1
  exact ⟨_, [some 1], r1, rfl, rfl, rfl, Compat.assoc _ _ Compat.nil (by norm_num) (by simp [used]) (by decide +kernel), by decide +kernel, by decide +kernel⟩

end JCBBProps
end RFS
