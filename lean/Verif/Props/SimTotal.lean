import Verif.Props.SimData
import Verif.Lemmas.Motion

/-!
Property C126, continued: when the trajectory of the simulator is generated, and its segments.
-/

set_option linter.unusedSectionVars false

namespace RFS
namespace SimProps
open Sim Real Motion TimeStamp Matrix TimeStampProps

theorem drawDx_some (c : TrajCfg) (u : Nat → ℝ) : ∀ (fuel pos : Nat), (∃ j < fuel, ¬ u (pos + j) * c.maxDx * c.dT < c.minDx * c.dT) → ∃ r, drawDx c u fuel pos = some r
  | 0, _, ⟨_, h, _⟩ => by omega
  | fuel + 1, pos, ⟨j, hj, hn⟩ => by
    unfold drawDx
    split
    · rename_i hlt
      cases j with
      | zero => exact absurd hlt hn
      | succ j => exact drawDx_some c u fuel (pos + 1) ⟨j, by omega, by rw [show pos + 1 + j = pos + (j + 1) by omega]; exact hn⟩
    · exact ⟨_, rfl⟩

theorem nextInput_some (c : TrajCfg) (u : Nat → ℝ) (fuel kMax k : Nat) (st : (Fin 3 → ℝ) × Nat × Nat) (hs : c.nSeg ≠ 0)
    (hu : ∀ pos, ∃ j < fuel, ¬ u (pos + j) * c.maxDx * c.dT < c.minDx * c.dT) : ∃ st', nextInput c u fuel kMax k st = some st' := by
  unfold nextInput
  split
  · exact ⟨_, rfl⟩
  · split
    · obtain ⟨r, hr⟩ := drawDx_some c u fuel st.2.2 (hu _)
      rw [hr]
      exact ⟨_, rfl⟩
    · exact ⟨_, rfl⟩

theorem trajFrom_some (c : TrajCfg) (u : Nat → ℝ) (fuel kMax : Nat) (dt : TS) (hs : c.nSeg ≠ 0) (hu : ∀ pos, ∃ j < fuel, ¬ u (pos + j) * c.maxDx * c.dT < c.minDx * c.dT)
    (hdt : Normalised dt) (h0 : 0 ≤ dt.sec) :
    ∀ (n k : Nat) (t : TS) (prev : St 3) (st : (Fin 3 → ℝ) × Nat × Nat), prev.t = t → Normalised t → instant t = k * instant dt →
      ((k + n : Nat) : Int) * (dt.sec + 1) ≤ 2147483647 → ∃ r, trajFrom c u fuel kMax dt n (k + 1) t prev st = some r
  | 0, k, t, prev, st, _, _, _, _ => ⟨_, rfl⟩
  | n + 1, k, t, prev, st, hp, ht, hi, hov => by
    have hd1 : 0 ≤ instant dt := by unfold instant; have := hdt.1; omega
    have hd2 : instant dt < (dt.sec + 1) * 1000000000 := by unfold instant; have := hdt.2.1; omega
    have ht1 : 0 ≤ instant t := by rw [hi]; positivity
    have hts : t.sec = instant t / 1000000000 := by unfold instant; have := ht.1; have := ht.2.1; omega
    have hsum : instant t + instant dt = ((k + 1 : Nat) : Int) * instant dt := by rw [hi]; push_cast; ring
    have hle : ((k + 1 : Nat) : Int) * instant dt ≤ ((k + 1 : Nat) : Int) * ((dt.sec + 1) * 1000000000) :=
      mul_le_mul_of_nonneg_left hd2.le (by positivity)
    have hle2 : ((k + 1 : Nat) : Int) * (dt.sec + 1) ≤ 2147483647 := by
      refine le_trans (mul_le_mul_of_nonneg_right ?_ (by omega)) hov
      push_cast
      omega
    have hle3 : instant t + instant dt ≤ 2147483647 * 1000000000 := by
      rw [hsum]
      calc _ ≤ _ := hle
        _ = ((k + 1 : Nat) : Int) * (dt.sec + 1) * 1000000000 := by ring
        _ ≤ _ := mul_le_mul_of_nonneg_right hle2 (by norm_num)
    have hno : NoOverflow t dt := by
      unfold NoOverflow InI32
      have := hdt.1
      have := ht.1
      have hs' : (t.sec + dt.sec) * 1000000000 ≤ instant t + instant dt := by unfold instant; omega
      have : 0 ≤ t.sec := by rw [hts]; omega
      refine ⟨⟨?_, ?_⟩, ?_, ?_⟩ <;> omega
    obtain ⟨t', e1, e2, hn', e3⟩ := (binop_exact t dt ht hdt).1 hno.1 hno.2
    obtain ⟨st', hst'⟩ := nextInput_some c u fuel kMax (k + 1) st hs hu
    have hx : ∃ x, step2d prev prev st'.1 dt = some x := by
      unfold step2d
      rw [hp, e1]
      exact ⟨_, rfl⟩
    obtain ⟨x, hx⟩ := hx
    obtain ⟨r, hr⟩ := trajFrom_some c u fuel kMax dt hs hu hdt h0 n (k + 1) t' { x with t := t' } st' rfl hn' (by rw [e3, hsum]) (by
      have : ((k + 1 + n : Nat) : Int) = ((k + (n + 1) : Nat) : Int) := by push_cast; ring
      rw [this]; exact hov)
    unfold trajFrom
    rw [e2, Option.bind_some, hst', Option.bind_some, hx, Option.bind_some, hr]
    exact ⟨_, rfl⟩

/-- **C126** (partial): with at least one segment, a speed that is fast enough among any `fuel` draws in a row, and a clock that does not overflow, the trajectory is generated. -/
theorem C126_total_partial (c : TrajCfg) (u : Nat → ℝ) (fuel kMax : Nat) (dt : TS) (hs : c.nSeg ≠ 0) (hu : ∀ pos, ∃ j < fuel, ¬ u (pos + j) * c.maxDx * c.dT < c.minDx * c.dT)
    (hdt : Normalised dt) (h0 : 0 ≤ dt.sec) (hov : (kMax : Int) * (dt.sec + 1) ≤ 2147483647) : ∃ r, generateTrajectory c u fuel kMax dt = some r := by
  obtain ⟨r, hr⟩ := trajFrom_some c u fuel kMax dt hs hu hdt h0 (kMax - 1) 0 zero ⟨0, 0, zero⟩ (0, 0, 0) rfl (by decide) (by simp [instant, TimeStamp.zero]) (by
    refine le_trans (mul_le_mul_of_nonneg_right ?_ (by omega)) hov
    push_cast
    omega)
  unfold generateTrajectory
  rw [hr]
  exact ⟨_, rfl⟩

/-- The hypotheses can be met: 100 steps in 4 segments. -/
example : ∃ r, generateTrajectory ⟨4, 1, 1, 1, 1 / 4, 1⟩ (fun _ => 1 / 2) 1 100 ⟨0, 100000000⟩ = some r :=
  C126_total_partial _ _ _ _ _ (by norm_num) (fun _ => ⟨0, one_pos, by norm_num⟩) (by decide) (by decide) (by decide)

/-- Number of displacements drawn before step `k`, segments having `s` steps: one in each step from 51 on until the segment of the step is reached. -/
def draws (s k : Nat) : Nat := if k ≤ 51 then 0 else min (k - 51) ((k - 1) / s + 1)

theorem nextInput_seg (c : TrajCfg) (u : Nat → ℝ) (fuel kMax k : Nat) (st st' : (Fin 3 → ℝ) × Nat × Nat) (hs : 0 < kMax / c.nSeg) (hi : st.2.1 = draws (kMax / c.nSeg) k)
    (h : nextInput c u fuel kMax k st = some st') :
    st'.2.1 = draws (kMax / c.nSeg) (k + 1) ∧ (51 < k → ¬ kMax / c.nSeg ∣ k → k / (kMax / c.nSeg) + 1 ≤ k - 51 → st'.1 = st.1) := by
  generalize hS : kMax / c.nSeg = s at *
  unfold nextInput at h
  rw [hS] at h
  by_cases h50 : k ≤ 50
  · rw [if_pos h50] at h
    cases h
    refine ⟨?_, fun h => by omega⟩
    show st.2.1 = _
    rw [hi]
    unfold draws
    rw [if_pos (by omega), if_pos (by omega)]
  · rw [if_neg h50] at h
    split at h
    · cases h
    · have hdr : draws s (k + 1) = min (k - 50) (k / s + 1) := by
        unfold draws
        rw [if_neg (by omega)]
        congr 1 <;> omega
      have hmono : (k - 1) / s ≤ k / s := Nat.div_le_div_right (by omega)
      have hstep : k / s ≤ (k - 1) / s + 1 := by
        have := Nat.add_div_right (k - 1) hs
        calc k / s ≤ (k - 1 + s) / s := Nat.div_le_div_right (by omega)
          _ = _ := this
      have hle : s * st.2.1 ≤ k ↔ st.2.1 ≤ k / s := by rw [Nat.le_div_iff_mul_le hs, Nat.mul_comm]
      split at h
      · rename_i hd
        obtain ⟨d, -, rfl⟩ := Option.map_eq_some_iff.1 h
        rw [hle] at hd
        refine ⟨?_, fun h51 hnd hc => ?_⟩
        · show st.2.1 + 1 = _
          rw [hdr]
          unfold draws at hi
          split at hi
          · have : k = 51 := by omega
            subst this
            rw [hi]
            omega
          · omega
        · exfalso
          have : (k - 1) / s = k / s := by
            obtain ⟨j, rfl⟩ : ∃ j, k = j + 1 := ⟨k - 1, by omega⟩
            rw [Nat.succ_div, if_neg hnd]
            rfl
          unfold draws at hi
          rw [if_neg (by omega)] at hi
          omega
      · rename_i hd
        cases h
        rw [hle] at hd
        refine ⟨?_, fun _ _ _ => rfl⟩
        rw [hdr]
        unfold draws at hi
        split at hi
        · omega
        · omega

theorem trajFrom_seg (c : TrajCfg) (u : Nat → ℝ) (fuel kMax : Nat) (dt : TS) (hs : 0 < kMax / c.nSeg) : ∀ (n k : Nat) (t : TS) (prev : St 3) (st : (Fin 3 → ℝ) × Nat × Nat)
    (r : List ((Fin 3 → ℝ) × TS) × List (St 3)), st.2.1 = draws (kMax / c.nSeg) k → trajFrom c u fuel kMax dt n k t prev st = some r →
    ∀ (i : Nat) (a : Fin 3 → ℝ) (d : (Fin 3 → ℝ) × TS), (st.1 :: r.1.map Prod.fst)[i]? = some a → r.1[i]? = some d → 51 < k + i → ¬ kMax / c.nSeg ∣ k + i →
      (k + i) / (kMax / c.nSeg) + 1 ≤ k + i - 51 → d.1 = a
  | 0, k, t, prev, st, r, _, h => by
    cases h
    intro i a d _ h2
    simp at h2
  | n + 1, k, t, prev, st, r, hi, h => by
    unfold trajFrom at h
    obtain ⟨t', ht', h⟩ := Option.bind_eq_some_iff.1 h
    obtain ⟨st', hst', h⟩ := Option.bind_eq_some_iff.1 h
    obtain ⟨x, hx', h⟩ := Option.bind_eq_some_iff.1 h
    obtain ⟨r', hr', rfl⟩ := Option.map_eq_some_iff.1 h
    obtain ⟨e1, e2⟩ := nextInput_seg c u fuel kMax k st st' hs hi hst'
    rintro (_ | i) a d h1 h2 h3 h4 h5
    · simp only [List.getElem?_cons_zero, Option.some.injEq] at h1 h2
      subst h1 h2
      exact e2 h3 h4 h5
    · simp only [List.getElem?_cons_succ, List.map_cons] at h1 h2
      have e : k + 1 + i = k + (i + 1) := by omega
      refine trajFrom_seg c u fuel kMax dt hs n (k + 1) t' _ st' r' e1 hr' i a d h1 h2 ?_ ?_ ?_ <;> rw [e] <;> assumption

/-- **C126** (partial), segments of `kMax / nSegments` steps: from the point on where the segments that begin in the first 50 steps have been made up for, the displacement changes at the beginning of a segment only. -/
theorem C126_segments_partial (c : TrajCfg) (u : Nat → ℝ) (fuel kMax : Nat) (dt : TS) (hs : 0 < kMax / c.nSeg) (ds : List ((Fin 3 → ℝ) × TS)) (xs : List (St 3))
    (h : generateTrajectory c u fuel kMax dt = some (ds, xs)) (k : Nat) (d d' : (Fin 3 → ℝ) × TS) (h1 : ds[k]? = some d) (h2 : ds[k + 1]? = some d') (hk : 51 < k + 1)
    (hnd : ¬ kMax / c.nSeg ∣ k + 1) (hc : (k + 1) / (kMax / c.nSeg) + 1 ≤ k + 1 - 51) : d'.1 = d.1 := by
  unfold generateTrajectory at h
  obtain ⟨r, hr, e⟩ := Option.map_eq_some_iff.1 h
  simp only [Prod.mk.injEq] at e
  obtain ⟨rfl, rfl⟩ := e
  rw [List.getElem?_cons_succ] at h2
  have e : 1 + k = k + 1 := by omega
  refine trajFrom_seg c u fuel kMax dt hs _ 1 zero _ (0, 0, 0) r ?_ hr k d.1 d' ?_ h2 (by omega) (by rw [e]; exact hnd) (by rw [e]; exact hc)
  · unfold draws; rw [if_pos (by omega)]
  · have := congrArg (Option.map Prod.fst) h1
    rw [← List.getElem?_map] at this
    simpa using this

/-- The hypotheses can be met: step 61 of 100, in segments of 25. -/
example : 0 < 100 / 4 ∧ 51 < 60 + 1 ∧ ¬ 100 / 4 ∣ 60 + 1 ∧ (60 + 1) / (100 / 4) + 1 ≤ 60 + 1 - 51 := by decide

end SimProps
end RFS
