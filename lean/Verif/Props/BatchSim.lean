import Verif.Model.BatchSim
import Verif.Props.Batch
import Verif.Props.Sim
import Verif.Props.Motion
import Verif.Props.VPark
import Mathlib.Probability.Distributions.Gaussian.Real

/-!
Properties C158-C166: the simulators around the batch optimisers.
-/

set_option linter.unusedSectionVars false

namespace RFS
namespace BatchSimProps
open BatchSim Batch

/-! ### C158: trajectory, odometry, dead reckoning -/

theorem trajFrom_spec (c : TrajCfg) (u : Nat → ℝ) (kMax : Nat) (hd : 0 ≤ c.dT) (hx : c.minDx ≤ c.maxDx) (hu : ∀ i, 0 ≤ u i ∧ u i < 1) : ∀ (n k : Nat) (t prev : ℝ) (st : ℝ × Nat × Nat)
    (r : List (ℝ × ℝ) × List (ℝ × ℝ)), (st.2.1 = 0 ∨ (c.minDx * c.dT ≤ st.1 ∧ st.1 ≤ c.maxDx * c.dT)) → trajFrom c u kMax n k t prev st = some r →
    r.1.length = n ∧ r.2.length = n ∧ ∀ i < n, ∃ d x p, r.1[i]? = some d ∧ r.2[i]? = some x ∧ ((t, prev) :: r.2)[i]? = some p ∧ d.1 = t + (i + 1) * c.dT ∧ x.1 = d.1 ∧ x.2 = p.2 + d.2 ∧
      c.minDx * c.dT ≤ d.2 ∧ d.2 ≤ c.maxDx * c.dT := by
  intro n
  induction n with
  | zero => intro k t prev st r _ h; cases h; exact ⟨rfl, rfl, fun i hi => by omega⟩
  | succ n ih =>
    intro k t prev st r hst h
    unfold trajFrom at h
    obtain ⟨st', h1, h2⟩ := Option.bind_eq_some_iff.1 h
    obtain ⟨q, h3, rfl⟩ := Option.map_eq_some_iff.1 h2
    have hlim : c.minDx * c.dT ≤ st'.1 ∧ st'.1 ≤ c.maxDx * c.dT ∧ st'.2.1 ≠ 0 := by
      unfold nextInput at h1
      split at h1
      · cases h1
      · split at h1
        · cases h1
          have := hu st.2.2
          refine ⟨?_, ?_, by simp⟩
          · refine mul_le_mul_of_nonneg_right ?_ hd
            nlinarith
          · refine mul_le_mul_of_nonneg_right ?_ hd
            nlinarith
        · rename_i hk
          cases h1
          rcases hst with h0 | h0
          · exact absurd (by rw [h0]; simp) hk
          · refine ⟨h0.1, h0.2, ?_⟩
            intro h0
            exact hk (by rw [h0]; simp)
    obtain ⟨i1, i2, i3⟩ := ih (k + 1) (t + c.dT) (prev + st'.1) st' q (Or.inr ⟨hlim.1, hlim.2.1⟩) h3
    refine ⟨by simp [i1], by simp [i2], fun i hi => ?_⟩
    cases i with
    | zero => exact ⟨_, _, _, rfl, rfl, rfl, by simp, rfl, rfl, hlim.1, hlim.2.1⟩
    | succ i =>
      obtain ⟨d, x, p, e1, e2, e3, e4, e5, e6, e7, e8⟩ := i3 i (by omega)
      exact ⟨d, x, p, by simpa using e1, by simpa using e2, by simpa using e3, by rw [e4]; push_cast; ring, e5, e6, e7, e8⟩

/-- **C158** (trajectory of the 1-D programs): one displacement and one pose per step, at the times `k dT`; each pose is the one before moved by the displacement; all speeds within the
limits. -/
theorem C158_trajectory (c : TrajCfg) (u : Nat → ℝ) (kMax : Nat) (hk : 1 ≤ kMax) (hd : 0 ≤ c.dT) (hx : c.minDx ≤ c.maxDx) (hu : ∀ i, 0 ≤ u i ∧ u i < 1)
    (ds xs : List (ℝ × ℝ)) (h : generateTrajectory c u kMax = some (ds, xs)) :
    ds.length = kMax ∧ xs.length = kMax ∧ ds[0]? = some (0, 0) ∧ xs[0]? = some (0, 0) ∧
      ∀ k, 1 ≤ k → k < kMax → ∃ d x p, ds[k]? = some d ∧ xs[k]? = some x ∧ xs[k - 1]? = some p ∧ d.1 = k * c.dT ∧ x.1 = k * c.dT ∧ x.2 = p.2 + d.2 ∧
        c.minDx * c.dT ≤ d.2 ∧ d.2 ≤ c.maxDx * c.dT := by
  unfold generateTrajectory at h
  obtain ⟨r, h1, h2⟩ := Option.map_eq_some_iff.1 h
  obtain ⟨i1, i2, i3⟩ := trajFrom_spec c u kMax hd hx hu _ _ _ _ _ r (Or.inl rfl) h1
  cases h2
  refine ⟨by simp; omega, by simp; omega, rfl, rfl, fun k hk1 hk2 => ?_⟩
  obtain ⟨k, rfl⟩ : ∃ j, k = j + 1 := ⟨k - 1, by omega⟩
  obtain ⟨d, x, p, e1, e2, e3, e4, e5, e6, e7, e8⟩ := i3 k (by omega)
  exact ⟨d, x, p, by simpa using e1, by simpa using e2, by simpa using e3, by rw [e4]; push_cast; ring, by rw [e5, e4]; push_cast; ring, e6, e7, e8⟩

/-- With at least one segment the trajectory is generated. -/
theorem C158_total (c : TrajCfg) (u : Nat → ℝ) (kMax : Nat) (hs : c.nSeg ≠ 0) : (generateTrajectory c u kMax).isSome = true := by
  have key : ∀ n k t prev st, (trajFrom c u kMax n k t prev st).isSome = true := by
    intro n
    induction n with
    | zero => intros; rfl
    | succ n ih =>
      intro k t prev st
      unfold trajFrom nextInput
      rw [if_neg hs]
      split <;> simp [ih]
  unfold generateTrajectory
  rw [Option.isSome_map]
  exact key ..

/-- What dead reckoning is: it starts at `x0` and moves by the odometry. -/
def DeadReckons {U S : Type} (step : S → U → S) (x0 : S) (odo : List (ℝ × U)) (dr : List (ℝ × S)) : Prop :=
  dr.length = odo.length + 1 ∧ dr[0]? = some (0, x0) ∧ ∀ (i : Nat) (o : ℝ × U), odo[i]? = some o → ∃ p, dr[i]? = some p ∧ dr[i + 1]? = some (o.1, step p.2 o.2)

/-- What the odometry is: the displacements with their times, with noise. -/
def NoisyCopy {U : Type} (noisy : Nat → U → U) (disp odo : List (ℝ × U)) : Prop :=
  odo.length = disp.length ∧ ∀ (i : Nat) (d : ℝ × U), disp[i]? = some d → odo[i]? = some (d.1, noisy (i + 1) d.2)

/-- **C158**, the full statement, for the 2-D programs: odometry and dead reckoning. -/
def C158_full : Prop := ∀ (step : ℝ → ℝ → ℝ) (noisy : Nat → ℝ → ℝ) (x0 : ℝ) (disp : List (ℝ × ℝ)),
  ∃ r, generateOdometry2d step noisy x0 disp = some r ∧ NoisyCopy noisy disp r.1 ∧ DeadReckons step x0 r.1 r.2

theorem odoFrom_spec {U S : Type} (step : S → U → S) (noisy : Nat → U → U) (x0 : S) : ∀ (rest pre : List (ℝ × U)) (odo : List (ℝ × U)) (dr : List (ℝ × S)),
    NoisyCopy noisy pre odo → DeadReckons step x0 odo dr →
    ∃ r, odoFrom step noisy (fun k => k - 1) (pre.length + 1) odo dr rest = some r ∧ NoisyCopy noisy (pre ++ rest) r.1 ∧ DeadReckons step x0 r.1 r.2 := by
  intro rest
  induction rest with
  | nil => intro pre odo dr h1 h2; exact ⟨(odo, dr), by simp [odoFrom], by simpa using h1, h2⟩
  | cons d ds ih =>
    intro pre odo dr h1 h2
    obtain ⟨a1, a2⟩ := h1
    obtain ⟨b1, b2, b3⟩ := h2
    have hlt : pre.length < dr.length := by omega
    have hdr : dr[pre.length]? = some dr[pre.length] := List.getElem?_eq_getElem hlt
    have hodo : (odo ++ [(d.1, noisy (pre.length + 1) d.2)])[pre.length]? = some (d.1, noisy (pre.length + 1) d.2) := by
      rw [← a1]; simp
    have := ih (pre ++ [d]) (odo ++ [(d.1, noisy (pre.length + 1) d.2)]) (dr ++ [(d.1, step dr[pre.length].2 (noisy (pre.length + 1) d.2))]) (by
      refine ⟨by simp [a1], fun i e he => ?_⟩
      rcases lt_trichotomy i pre.length with hi | hi | hi
      · rw [List.getElem?_append_left hi] at he
        rw [List.getElem?_append_left (by omega)]
        exact a2 i e he
      · subst hi
        rw [List.getElem?_append_right le_rfl] at he
        simp at he
        subst he
        exact hodo
      · rw [List.getElem?_eq_none (by simp; omega)] at he
        cases he) (by
      refine ⟨by simp [b1], by rw [List.getElem?_append_left (by omega)]; exact b2, fun i o ho => ?_⟩
      rcases lt_trichotomy i pre.length with hi | hi | hi
      · rw [List.getElem?_append_left (by omega)] at ho
        obtain ⟨p, e1, e2⟩ := b3 i o ho
        exact ⟨p, by rw [List.getElem?_append_left (by omega)]; exact e1, by rw [List.getElem?_append_left (by omega)]; exact e2⟩
      · subst hi
        rw [hodo] at ho
        cases ho
        refine ⟨dr[pre.length], by rw [List.getElem?_append_left hlt]; exact hdr, ?_⟩
        rw [List.getElem?_append_right (by omega), show pre.length + 1 - dr.length = 0 by omega]
        rfl
      · rw [List.getElem?_eq_none (by simp; omega)] at ho
        cases ho)
    obtain ⟨r, c1, c2, c3⟩ := this
    refine ⟨r, ?_, by simpa using c2, c3⟩
    unfold odoFrom
    rw [show pre.length + 1 - 1 = pre.length by omega, hdr]
    simp only [hodo]
    simpa using c1

/-- **C158** (1-D programs; the 2-D ones are missing, see `C158_violated`): each odometry entry is the true displacement with its time plus normal noise of the configured variance times `dT²`; dead
reckoning starts at 0 and moves by the odometry. -/
theorem C158_odometry1d_partial (vardx dT : ℝ) (w : Nat → ℝ) (disp : List (ℝ × ℝ)) :
    ∃ r, generateOdometry1d vardx dT w disp = some r ∧ NoisyCopy (fun k u => u + √(vardx * dT ^ 2) * w k) disp r.1 ∧ DeadReckons (fun x u => x + u) 0 r.1 r.2 := by
  have hN : ∀ noisy : Nat → ℝ → ℝ, NoisyCopy noisy [] [] := fun _ => ⟨rfl, fun i d h => by simp at h⟩
  have hD : DeadReckons (fun x u : ℝ => x + u) 0 [] [(0, 0)] := ⟨rfl, rfl, fun i o h => by simp at h⟩
  have := odoFrom_spec (fun x u : ℝ => x + u) (fun k u => u + √(vardx * dT * dT) * w k) 0 disp [] [] [(0, 0)] (hN _) hD
  simp only [List.length_nil, List.nil_append, Nat.zero_add] at this
  unfold generateOdometry1d
  rw [show vardx * dT ^ 2 = vardx * dT * dT by ring]
  exact this

/-- **C158** is false of the 2-D programs: with at least two steps, dead reckoning reads past the end of `odometry_`. -/
theorem C158_violated_2d {U S : Type} (step : S → U → S) (noisy : Nat → U → U) (x0 : S) (d : ℝ × U) (ds : List (ℝ × U)) :
    generateOdometry2d step noisy x0 (d :: ds) = none := by
  unfold generateOdometry2d odoFrom
  simp

theorem C158_violated : ¬ C158_full := by
  intro h
  obtain ⟨r, h1, -⟩ := h (fun x u => x + u) (fun _ u => u) 0 [(1, 1)]
  rw [C158_violated_2d] at h1
  cases h1

/-- Non-trivial instance: three steps of speed 2 with `dT = 1/2`. -/
example : generateTrajectory ⟨1, 2, 2, 1 / 2⟩ (fun _ => 1 / 2) 3 = some ([(0, 0), (1 / 2, 1), (1, 1)], [(0, 0), (1 / 2, 1), (1, 2)]) := by
  simp only [generateTrajectory, trajFrom, nextInput]
  norm_num

/-! ### C159: handing over the measurements -/

theorem genAll_times (c : Sim.Cfg) (u : Nat → ℝ) (code : Int) (fuel : Nat) (dT : ℝ) : ∀ (ss : List (List (Option ℝ))) (t : ℝ) (first : List ℝ) (pos : Nat)
    (r : List (ℝ × (ℝ × Int)) × List ℝ), genAll c u code fuel dT ss t first pos = some r →
    ∃ scans : List (List (ℝ × Int)), scans.length = ss.length ∧ r.1 = (scans.zipIdx.map fun x => x.1.map fun z => (t + x.2 * dT, z)).flatten := by
  intro ss
  induction ss with
  | nil => intro t first pos r h; cases h; exact ⟨[], rfl, rfl⟩
  | cons s ss ih =>
    intro t first pos r h
    unfold genAll at h
    obtain ⟨g, -, h2⟩ := Option.bind_eq_some_iff.1 h
    obtain ⟨q, h3, rfl⟩ := Option.map_eq_some_iff.1 h2
    obtain ⟨scans, e1, e2⟩ := ih _ _ _ q h3
    refine ⟨g.out :: scans, by simp [e1], ?_⟩
    rw [List.zipIdx_cons, List.map_cons, List.flatten_cons, e2]
    refine congrArg₂ (· ++ ·) (by simp) ?_
    rw [Nat.zero_add, List.zipIdx_succ, List.map_map]
    refine congrArg List.flatten (List.map_congr_left fun x _ => ?_)
    simp only [Function.comp]
    refine List.map_congr_left fun z _ => ?_
    rw [show t + dT + x.2 * dT = t + ((x.2 + 1 : ℕ) : ℝ) * dT by push_cast; ring]

theorem filter_scans (dT : ℝ) (hd : 0 < dT) (k : Nat) : ∀ (scans : List (List (ℝ × Int))) (j : Nat),
    (((scans.zipIdx j).map fun x => x.1.map fun z => ((x.2 : ℝ) * dT, z)).flatten.filter fun w => decide (w.1 = (k : ℝ) * dT)).map Prod.snd =
      if j ≤ k then scans.getD (k - j) [] else [] := by
  intro scans
  induction scans with
  | nil => intro j; simp
  | cons s scans ih =>
    intro j
    rw [List.zipIdx_cons, List.map_cons, List.flatten_cons, List.filter_append, List.map_append, ih]
    have hj : ((j : ℝ) * dT = k * dT) ↔ j = k := by
      rw [mul_left_inj' hd.ne', Nat.cast_inj]
    by_cases hjk : j = k
    · subst hjk
      rw [List.filter_eq_self.2 (by intro a ha; obtain ⟨z, -, rfl⟩ := List.mem_map.1 ha; simp)]
      simp [Function.comp_def]
    · rw [List.filter_eq_nil_iff.2 (by intro a ha; obtain ⟨z, -, rfl⟩ := List.mem_map.1 ha; simpa using fun h => hjk (hj.1 h))]
      by_cases hlt : j < k
      · rw [if_pos (by omega), if_pos (by omega), show k - j = (k - (j + 1)) + 1 by omega]
        simp
      · rw [if_neg (by omega), if_neg (by omega)]
        rfl

/-- **C159**: in the 1-D programs every generated measurement is accepted by the optimiser and stored under the pose of the step in which it was generated, in order; there is one pose per step. -/
theorem C159_filed (c : TrajCfg) (u w u' : Nat → ℝ) (kMax : Nat) (vardx : ℝ) (cfg : Sim.Cfg) (code : Int) (fuel nL : Nat) (ss : List (List (Option ℝ))) (hk : 1 ≤ kMax) (hd : 0 < c.dT)
    (ds xs odo dr : List (ℝ × ℝ)) (ms : List (ℝ × (ℝ × Int))) (first : List ℝ) (h1 : generateTrajectory c u kMax = some (ds, xs))
    (h2 : generateOdometry1d vardx c.dT w ds.tail = some (odo, dr)) (h3 : generateMeasurements cfg u' code fuel c.dT nL ss = some (ms, first)) (hs : ss.length = kMax) :
    ∃ s, handOver odo ms = .ok s ∧ s.Z.length = xs.length ∧ s.Z.length = kMax ∧ s.Z.flatten = ms.map Prod.snd ∧
      ∀ k < kMax, s.Z[k]? = some ((ms.filter fun m => decide (m.1 = (k : ℝ) * c.dT)).map Prod.snd) := by
  -- the times of the inputs
  have htr : ∀ (n k : Nat) (t prev : ℝ) (st : ℝ × Nat × Nat) (r : List (ℝ × ℝ) × List (ℝ × ℝ)), trajFrom c u kMax n k t prev st = some r →
      r.1.length = n ∧ r.2.length = n ∧ r.1.map Prod.fst = (List.range n).map fun i : Nat => t + (i + 1) * c.dT := by
    intro n
    induction n with
    | zero => intro k t prev st r h; cases h; exact ⟨rfl, rfl, rfl⟩
    | succ n ih =>
      intro k t prev st r h
      unfold trajFrom at h
      obtain ⟨st', -, h2⟩ := Option.bind_eq_some_iff.1 h
      obtain ⟨q, h3, rfl⟩ := Option.map_eq_some_iff.1 h2
      obtain ⟨i1, i2, i3⟩ := ih _ _ _ _ q h3
      refine ⟨by simp [i1], by simp [i2], ?_⟩
      rw [List.map_cons, i3, List.range_succ_eq_map, List.map_cons, List.map_map]
      congr 1
      · simp
      · refine List.map_congr_left fun i _ => ?_
        simp only [Function.comp, Nat.succ_eq_add_one]
        push_cast
        ring
  unfold generateTrajectory at h1
  obtain ⟨r, g1, g2⟩ := Option.map_eq_some_iff.1 h1
  obtain ⟨l1, l2, l3⟩ := htr _ _ _ _ _ r g1
  cases g2
  obtain ⟨r', f1, ⟨f2, f3⟩, -⟩ := C158_odometry1d_partial vardx c.dT w r.1
  rw [List.tail_cons] at h2
  rw [f1] at h2
  cases h2
  have hot : odo.map Prod.fst = r.1.map Prod.fst := by
    apply List.ext_getElem?
    intro i
    rw [List.getElem?_map, List.getElem?_map]
    by_cases hi : i < r.1.length
    · rw [f3 i _ (List.getElem?_eq_getElem hi), List.getElem?_eq_getElem hi]
      rfl
    · rw [List.getElem?_eq_none (by simp only at f2; omega), List.getElem?_eq_none (by omega)]
  obtain ⟨scans, s1, s2⟩ := genAll_times cfg u' code fuel c.dT ss 0 _ _ _ h3
  have hms : ms = (scans.zipIdx.map fun x => x.1.map fun z => ((x.2 : ℝ) * c.dT, z)).flatten := by
    rw [show ms = (ms, first).1 from rfl, s2]
    simp only [zero_add]
  have htimes : (0 : ℝ) :: odo.map Prod.fst = (List.range kMax).map fun k : Nat => (k : ℝ) * c.dT := by
    rw [hot, l3, show kMax = (kMax - 1) + 1 by omega, List.range_succ_eq_map, List.map_cons, List.map_map]
    congr 1
    · simp
    · refine List.map_congr_left fun i _ => ?_
      simp [Function.comp]
  have hget : ∀ k < kMax, ((0 : ℝ) :: odo.map Prod.fst)[k]? = some ((k : ℝ) * c.dT) := by
    intro k hk
    rw [htimes, List.getElem?_map, List.getElem?_range hk]
    rfl
  have hlt : ∀ i j : Nat, i < j → (i : ℝ) * c.dT < j * c.dT := fun i j h => mul_lt_mul_of_pos_right (Nat.cast_lt.2 h) hd
  obtain ⟨s, e1, e2, e3⟩ := BatchProps.C107_filed_partial (0 : ℝ) (odo.map Prod.fst) ms (by
      rw [htimes, List.pairwise_map]
      exact List.pairwise_lt_range.imp fun h => (hlt _ _ h).le) (by
      intro z hz
      rw [hms] at hz
      obtain ⟨l, hl, hzl⟩ := List.mem_flatten.1 hz
      obtain ⟨x, hx, rfl⟩ := List.mem_map.1 hl
      obtain ⟨y, -, rfl⟩ := List.mem_map.1 hzl
      have := List.mem_zipIdx' hx
      rw [htimes]
      exact List.mem_map.2 ⟨x.2, List.mem_range.2 (by omega), rfl⟩)
  have hlen : s.Z.length = kMax := by
    rw [e2, List.length_map]
    have := congrArg List.length htimes
    simp at this
    omega
  have hZ : ∀ k < kMax, s.Z[k]? = some ((ms.filter fun m => decide (m.1 = (k : ℝ) * c.dT)).map Prod.snd) := by
    intro k hk
    refine (e3 k _ (hget k hk)).1 fun j hj => ?_
    rw [hget j (by omega)]
    intro h
    exact absurd (Option.some.inj h) (hlt j k hj).ne
  refine ⟨s, e1, by rw [hlen]; simp [l2]; omega, hlen, ?_, hZ⟩
  have hsc : s.Z = scans := by
    apply List.ext_getElem?
    intro k
    by_cases hk' : k < kMax
    · rw [hZ k hk', hms, filter_scans c.dT hd k scans 0, if_pos (Nat.zero_le _), Nat.sub_zero, List.getElem?_eq_getElem (by omega), List.getD_eq_getElem?_getD, List.getElem?_eq_getElem (by omega)]
      rfl
    · rw [List.getElem?_eq_none (by omega), List.getElem?_eq_none (by omega)]
  rw [hsc, hms, List.map_flatten, List.map_map]
  congr 1
  have : ∀ (l : List (List (ℝ × Int))) (j : Nat), l = (l.zipIdx j).map (fun x => (x.1.map fun z => ((x.2 : ℝ) * c.dT, z)).map Prod.snd) := by
    intro l
    induction l with
    | nil => intro j; rfl
    | cons a l ih => intro j; rw [List.zipIdx_cons, List.map_cons, ← ih]; simp [Function.comp_def]
  exact this scans 0

/-- Two steps of the 1-D simulator: one displacement, and the landmark seen in the second step. -/
example : ∃ ds xs odo dr ms first, generateTrajectory ⟨1, 2, 2, 1 / 2⟩ (fun _ => 1 / 2) 2 = some (ds, xs) ∧ generateOdometry1d 1 (1 / 2) (fun _ => 0) ds.tail = some (odo, dr) ∧
    generateMeasurements ⟨2, 0, 1, 0⟩ (fun _ => 1 / 2) (-2) 1 (1 / 2) 1 [[none], [some (-1)]] = some (ms, first) ∧ ms.length = 1 := by
  have h0 : Sim.nClutter 0 (1 / 2) = some 0 := SimProps.no_alarm
  refine ⟨[(0, 0), (1 / 2, 1)], [(0, 0), (1 / 2, 1)], [(1 / 2, 1)], [(0, 0), (1 / 2, 1)], [(1 / 2, (-1, 0))], [1 / 2], ?_, ?_, ?_, rfl⟩
  · simp only [generateTrajectory, trajFrom, nextInput]
    norm_num
  · norm_num [generateOdometry1d, odoFrom]
  · norm_num [generateMeasurements, genAll, genStep, h0, clutterLoop, detect]

/-! ### C160: data associations and first observations -/

/-- One landmark after the other: what is appended, and when a landmark is marked as observed. -/
theorem fold_detect (c : Sim.Cfg) (u : Nat → ℝ) (t : ℝ) : ∀ (l : List (Nat × Option ℝ)) (g : GenSt), ∃ D : List (ℝ × Int),
    (l.foldl (detect c u t) g).out = g.out ++ D ∧ (l.foldl (detect c u t) g).first.length = g.first.length ∧
    (∀ x ∈ D, ∃ m : Nat, x.2 = m ∧ (m, some x.1) ∈ l ∧ c.rMin ≤ |x.1| ∧ |x.1| ≤ c.rMax) ∧
    ∀ m < g.first.length, (l.foldl (detect c u t) g).first[m]? = some (if g.first.getD m 0 = -1 ∧ ∃ x ∈ D, x.2 = (m : Int) then t else g.first.getD m 0) := by
  intro l
  induction l with
  | nil =>
    intro g
    refine ⟨[], by simp, rfl, by simp, fun m hm => ?_⟩
    simp [List.getElem?_eq_getElem hm]
  | cons a l ih =>
    intro g
    rw [List.foldl_cons]
    obtain ⟨D, d1, d2, d3, d4⟩ := ih (detect c u t g a)
    have hcases : (detect c u t g a).out = g.out ∧ (detect c u t g a).first = g.first ∨ ∃ z, a.2 = some z ∧ c.rMin ≤ |z| ∧ |z| ≤ c.rMax ∧
        (detect c u t g a).out = g.out ++ [(z, (a.1 : Int))] ∧ (detect c u t g a).first = if g.first.getD a.1 0 = -1 then g.first.set a.1 t else g.first := by
      unfold detect
      split
      · exact Or.inl ⟨rfl, rfl⟩
      · rename_i z hz
        split
        · rename_i hlim
          split
          · exact Or.inr ⟨z, hz, hlim.2, hlim.1, rfl, rfl⟩
          · exact Or.inl ⟨rfl, rfl⟩
        · exact Or.inl ⟨rfl, rfl⟩
    rcases hcases with ⟨h1, h2⟩ | ⟨z, hz, hl1, hl2, h1, h2⟩
    · refine ⟨D, by rw [d1, h1], by rw [d2, h2], fun x hx => ?_, fun m hm => ?_⟩
      · obtain ⟨m, e1, e2, e3⟩ := d3 x hx
        exact ⟨m, e1, List.mem_cons_of_mem _ e2, e3⟩
      · rw [d4 m (by rw [h2]; exact hm), h2]
    · have hlen : (detect c u t g a).first.length = g.first.length := by rw [h2]; split <;> simp
      refine ⟨(z, (a.1 : Int)) :: D, by rw [d1, h1]; simp, by rw [d2, hlen], fun x hx => ?_, fun m hm => ?_⟩
      · rcases List.mem_cons.1 hx with rfl | hx
        · exact ⟨a.1, rfl, by rw [← hz]; exact List.mem_cons_self .., hl1, hl2⟩
        · obtain ⟨m, e1, e2, e3⟩ := d3 x hx
          exact ⟨m, e1, List.mem_cons_of_mem _ e2, e3⟩
      · rw [d4 m (by rw [hlen]; exact hm)]
        congr 1
        have hex : (∃ x ∈ (z, (a.1 : Int)) :: D, x.2 = (m : Int)) ↔ a.1 = m ∨ ∃ x ∈ D, x.2 = (m : Int) := by
          simp only [List.mem_cons, exists_eq_or_imp, Nat.cast_inj]
        simp only [hex]
        by_cases ham : a.1 = m
        · subst ham
          have hget : (detect c u t g a).first.getD a.1 0 = if g.first.getD a.1 0 = -1 then t else g.first.getD a.1 0 := by
            rw [h2]
            by_cases h0 : g.first.getD a.1 0 = -1
            · rw [if_pos h0, if_pos h0, List.getD_eq_getElem?_getD, List.getElem?_set_self hm]
              rfl
            · rw [if_neg h0, if_neg h0]
          rw [hget]
          generalize g.first.getD a.1 0 = v
          by_cases h0 : v = -1
          · simp only [h0, if_true, true_or, and_true]
            split <;> rfl
          · simp only [h0, if_false, false_and]
        · have hget : (detect c u t g a).first.getD m 0 = g.first.getD m 0 := by
            rw [h2]
            split
            · rw [List.getD_eq_getElem?_getD, List.getElem?_set_ne ham, ← List.getD_eq_getElem?_getD]
            · rfl
          rw [hget]
          simp only [ham, false_or]

theorem clutterLoop_spec (c : Sim.Cfg) (u : Nat → ℝ) (code : Int) (fuel : Nat) (hc : 0 ≤ c.rMax) (hu : ∀ i, 0 ≤ u i ∧ u i < 1) : ∀ n pos l, clutterLoop c u code fuel n pos = some l →
    l.1.length = n ∧ ∀ x ∈ l.1, x.2 = code ∧ 0 ≤ x.1 ∧ c.rMin ≤ x.1 ∧ x.1 ≤ c.rMax := by
  intro n
  induction n with
  | zero => intro pos l h; cases h; exact ⟨rfl, by simp⟩
  | succ n ih =>
    intro pos l h
    unfold clutterLoop at h
    obtain ⟨r, h1, h2⟩ := Option.bind_eq_some_iff.1 h
    obtain ⟨q, h3, rfl⟩ := Option.map_eq_some_iff.1 h2
    obtain ⟨i1, i2⟩ := ih _ q h3
    have hr : ∀ fuel pos r, Sim.clutterRange c u fuel pos = some r → 0 ≤ r.1 ∧ c.rMin ≤ r.1 ∧ r.1 ≤ c.rMax := by
      intro fuel
      induction fuel with
      | zero => intro pos r h; cases h
      | succ fuel ih =>
        intro pos r h
        unfold Sim.clutterRange at h
        split at h
        · exact ih _ r h
        · rename_i hlt
          cases h
          have := hu pos
          exact ⟨mul_nonneg this.1 hc, not_lt.1 hlt, by nlinarith⟩
    refine ⟨by simp [i1], fun x hx => ?_⟩
    rcases List.mem_cons.1 hx with rfl | hx
    · exact ⟨rfl, hr _ _ _ h1⟩
    · exact i2 x hx

/-- The time of the first measurement of a landmark, -1 if there is none: read from the measurements alone. -/
noncomputable def firstTime (ms : List (ℝ × (ℝ × Int))) (m : Nat) : ℝ := ((ms.find? fun x => decide (x.2.2 = (m : Int))).map Prod.fst).getD (-1)

theorem genAll_assoc (c : Sim.Cfg) (u : Nat → ℝ) (code : Int) (fuel : Nat) (dT : ℝ) (hcode : code < 0) (hc : 0 ≤ c.rMax) (hd : 0 ≤ dT) (hu : ∀ i, 0 ≤ u i ∧ u i < 1) :
    ∀ (ss : List (List (Option ℝ))) (t : ℝ) (first : List ℝ) (pos : Nat) (r : List (ℝ × (ℝ × Int)) × List ℝ), 0 ≤ t → genAll c u code fuel dT ss t first pos = some r →
    r.2.length = first.length ∧ (∀ m < first.length, r.2[m]? = some (if first.getD m 0 = -1 then firstTime r.1 m else first.getD m 0)) ∧
    ∀ x ∈ r.1, c.rMin ≤ |x.2.1| ∧ |x.2.1| ≤ c.rMax ∧ ((∃ k m : Nat, x.1 = t + k * dT ∧ x.2.2 = m ∧ (ss[k]?.bind fun s => s[m]?) = some (some x.2.1)) ∨ (x.2.2 = code ∧ 0 ≤ x.2.1)) := by
  intro ss
  induction ss with
  | nil =>
    intro t first pos r _ h
    cases h
    refine ⟨rfl, fun m hm => ?_, by simp⟩
    rw [List.getElem?_eq_getElem hm, List.getD_eq_getElem?_getD, List.getElem?_eq_getElem hm]
    simp only [Option.getD_some, firstTime, List.find?_nil, Option.map_none, Option.getD_none, Option.some.injEq]
    split <;> simp_all
  | cons s ss ih =>
    intro t first pos r ht h
    unfold genAll at h
    obtain ⟨g, h1, h2⟩ := Option.bind_eq_some_iff.1 h
    obtain ⟨q, h3, rfl⟩ := Option.map_eq_some_iff.1 h2
    obtain ⟨i1, i2, i3⟩ := ih (t + dT) _ _ q (by linarith) h3
    unfold genStep at h1
    obtain ⟨n, -, h4⟩ := Option.bind_eq_some_iff.1 h1
    obtain ⟨l, h5, rfl⟩ := Option.map_eq_some_iff.1 h4
    obtain ⟨D, d1, d2, d3, d4⟩ := fold_detect c u t ((List.range s.length).zip s) ⟨[], first, pos⟩
    obtain ⟨-, hal⟩ := clutterLoop_spec c u code fuel hc hu _ _ l h5
    simp only at i1 i2 i3 d1 d2 d4 ⊢
    rw [List.nil_append] at d1
    rw [d1]
    refine ⟨by rw [i1, d2], fun m hm => ?_, fun x hx => ?_⟩
    · rw [i2 m (by rw [d2]; exact hm)]
      congr 1
      have hg := d4 m hm
      rw [List.getD_eq_getElem?_getD, hg, Option.getD_some]
      have hfind : firstTime (List.map (fun z => (t, z)) (D ++ l.1) ++ q.1) m = if ∃ x ∈ D, x.2 = (m : Int) then t else firstTime q.1 m := by
        unfold firstTime
        rw [List.find?_append, List.map_append, List.find?_append]
        by_cases hx : ∃ x ∈ D, x.2 = (m : Int)
        · rw [if_pos hx]
          obtain ⟨x, hx1, hx2⟩ := hx
          have hsome : ((D.map fun z => (t, z)).find? fun x => decide (x.2.2 = (m : Int))).isSome = true := by
            rw [List.find?_isSome]
            exact ⟨(t, x), List.mem_map.2 ⟨x, hx1, rfl⟩, by simpa using hx2⟩
          obtain ⟨y, hy⟩ := Option.isSome_iff_exists.1 hsome
          rw [hy]
          have := List.mem_of_find?_eq_some hy
          obtain ⟨z, -, rfl⟩ := List.mem_map.1 this
          rfl
        · rw [if_neg hx]
          have hn1 : (D.map fun z => (t, z)).find? (fun x => decide (x.2.2 = (m : Int))) = none := by
            rw [List.find?_eq_none]
            intro y hy
            obtain ⟨z, hz, rfl⟩ := List.mem_map.1 hy
            simp only [decide_eq_true_eq]
            exact fun h => hx ⟨z, hz, h⟩
          have hn2 : (l.1.map fun z => (t, z)).find? (fun x => decide (x.2.2 = (m : Int))) = none := by
            rw [List.find?_eq_none]
            intro y hy
            obtain ⟨z, hz, rfl⟩ := List.mem_map.1 hy
            simp only [decide_eq_true_eq]
            rw [(hal z hz).1]
            omega
          rw [hn1, hn2]
          simp
      rw [hfind]
      by_cases h0 : first.getD m 0 = -1
      · by_cases hx : ∃ x ∈ D, x.2 = (m : Int)
        · have ht1 : t ≠ -1 := by linarith
          simp only [h0, hx, and_self, if_true, ht1, if_false]
        · simp only [h0, hx, and_false, if_false, if_true]
      · simp only [h0, false_and, if_false]
    · rw [List.mem_append] at hx
      rcases hx with hx | hx
      · obtain ⟨z, hz, rfl⟩ := List.mem_map.1 hx
        rcases List.mem_append.1 hz with hz | hz
        · obtain ⟨m, e1, e2, e3, e4⟩ := d3 z hz
          refine ⟨e3, e4, Or.inl ⟨0, m, by simp, e1, ?_⟩⟩
          simpa using (SimProps.mem_zip_range s m (some z.1)).1 e2
        · obtain ⟨e1, e2, e3, e4⟩ := hal z hz
          rw [abs_of_nonneg e2]
          exact ⟨e3, e4, Or.inr ⟨e1, e2⟩⟩
      · obtain ⟨e1, e2, e3⟩ := i3 x hx
        refine ⟨e1, e2, e3.imp (fun ⟨k, m, f1, f2, f3⟩ => ⟨k + 1, m, by rw [f1]; push_cast; ring, f2, by simpa using f3⟩) id⟩

/-- The samples of a step that are within the range limits, with the numbers of their landmarks. -/
noncomputable def visible (c : Sim.Cfg) (l : List (Nat × Option ℝ)) : List (ℝ × Int) :=
  l.filterMap fun x => x.2.bind fun z => if c.rMin ≤ |z| ∧ |z| ≤ c.rMax then some (z, (x.1 : Int)) else none

theorem fold_detect_exact (c : Sim.Cfg) (u : Nat → ℝ) (t : ℝ) : ∀ (l : List (Nat × Option ℝ)) (g : GenSt),
    (l.foldl (detect c u t) g).out = g.out ++ (((visible c l).zipIdx g.pos).filter fun y => decide (u y.2 ≤ c.pd)).map Prod.fst ∧
    (l.foldl (detect c u t) g).pos = g.pos + (visible c l).length := by
  intro l
  induction l with
  | nil => intro g; simp [visible]
  | cons a l ih =>
    intro g
    rw [List.foldl_cons]
    obtain ⟨i1, i2⟩ := ih (detect c u t g a)
    rw [i1, i2]
    have hv : visible c (a :: l) = (match a.2.bind fun z => if c.rMin ≤ |z| ∧ |z| ≤ c.rMax then some (z, (a.1 : Int)) else none with
        | none => visible c l | some y => y :: visible c l) := by
      unfold visible
      rw [List.filterMap_cons]
      cases (a.2.bind fun z => if c.rMin ≤ |z| ∧ |z| ≤ c.rMax then some (z, (a.1 : Int)) else none) <;> rfl
    unfold detect
    split
    · rename_i h
      rw [hv, h]
      simp
    · rename_i z h
      by_cases hl : |z| ≤ c.rMax ∧ c.rMin ≤ |z|
      · rw [hv, h, if_pos hl]
        simp only [Option.bind_some, if_pos hl.symm, List.zipIdx_cons, List.length_cons, List.filter_cons]
        by_cases hp : u g.pos ≤ c.pd
        · simp only [hp, if_true, decide_true, List.map_cons, List.append_assoc, List.singleton_append]
          exact ⟨trivial, by omega⟩
        · simp only [hp, if_false, decide_false, Bool.false_eq_true]
          exact ⟨trivial, by omega⟩
      · rw [hv, h, if_neg hl]
        have : ¬(c.rMin ≤ |z| ∧ |z| ≤ c.rMax) := fun q => hl q.symm
        simp only [Option.bind_some, if_neg this]
        exact ⟨trivial, trivial⟩

/-- **C160**, what is detected in a step: of the samples within the limits exactly those whose random draw is at most the probability of detection, in the order of the landmarks; then as many
false alarms as the next draw gives. -/
theorem C160_detection (c : Sim.Cfg) (u : Nat → ℝ) (code : Int) (fuel : Nat) (t : ℝ) (samples : List (Option ℝ)) (first : List ℝ) (pos : Nat) (g : GenSt) (hc : 0 ≤ c.rMax)
    (hu : ∀ i, 0 ≤ u i ∧ u i < 1) (h : genStep c u code fuel t samples first pos = some g) :
    ∃ alarms : List (ℝ × Int), g.out = (((visible c ((List.range samples.length).zip samples)).zipIdx pos).filter fun y => decide (u y.2 ≤ c.pd)).map Prod.fst ++ alarms ∧
      Sim.nClutter c.mean (u (pos + (visible c ((List.range samples.length).zip samples)).length)) = some alarms.length ∧ ∀ x ∈ alarms, x.2 = code := by
  unfold genStep at h
  obtain ⟨n, h1, h2⟩ := Option.bind_eq_some_iff.1 h
  obtain ⟨l, h3, rfl⟩ := Option.map_eq_some_iff.1 h2
  obtain ⟨e1, e2⟩ := fold_detect_exact c u t ((List.range samples.length).zip samples) ⟨[], first, pos⟩
  obtain ⟨l1, l2⟩ := clutterLoop_spec c u code fuel hc hu n _ _ h3
  refine ⟨l.1, by simpa using e1, ?_, fun x hx => (l2 x hx).1⟩
  rw [l1, ← h1, e2]

/-- **C160**: in the 1-D programs a measurement with a non-negative data association is the sample of the landmark of that number in the step of its time; all other measurements are false alarms with
the code for them; all are within the range limits; and the recorded first observation of a landmark is the time of its first measurement, -1 without one. -/
theorem C160_associations (c : Sim.Cfg) (u : Nat → ℝ) (code : Int) (fuel nLmk : Nat) (dT : ℝ) (hcode : code < 0) (hc : 0 ≤ c.rMax) (hd : 0 ≤ dT) (hu : ∀ i, 0 ≤ u i ∧ u i < 1)
    (ss : List (List (Option ℝ))) (ms : List (ℝ × (ℝ × Int))) (first : List ℝ) (h : generateMeasurements c u code fuel dT nLmk ss = some (ms, first)) :
    (∀ x ∈ ms, c.rMin ≤ |x.2.1| ∧ |x.2.1| ≤ c.rMax ∧
      ((∃ k m : Nat, x.1 = k * dT ∧ x.2.2 = m ∧ (ss[k]?.bind fun s => s[m]?) = some (some x.2.1)) ∨ (x.2.2 = code ∧ 0 ≤ x.2.1))) ∧
    first.length = nLmk ∧ ∀ m < nLmk, first[m]? = some (firstTime ms m) := by
  obtain ⟨h1, h2, h3⟩ := genAll_assoc c u code fuel dT hcode hc hd hu ss 0 _ _ _ le_rfl h
  refine ⟨fun x hx => ?_, by simpa using h1, fun m hm => ?_⟩
  · have := h3 x hx
    simpa only [zero_add] using this
  · have := h2 m (by simpa using hm)
    rw [List.getD_eq_getElem?_getD, List.getElem?_replicate, if_pos hm] at this
    simpa using this

/-- Non-trivial instance: a landmark seen in the second of two steps, no false alarms. -/
example : generateMeasurements ⟨2, 0, 1, 0⟩ (fun _ => 1 / 2) (-2) 1 3 1 [[none], [some (-1)]] = some ([(3, (-1, 0))], [3]) := by
  have h0 : Sim.nClutter 0 (1 / 2) = some 0 := SimProps.no_alarm
  norm_num [generateMeasurements, genAll, genStep, h0, clutterLoop, detect]

/-! ### C161: number of landmarks -/

theorem lmkSteps_length (kMax nL : Nat) (hn : 0 < nL) (hle : nL ≤ kMax) : ∀ n k cr : Nat, k + 1 + n = kMax → kMax * cr ≤ k * nL → k * nL < kMax * (cr + 1) →
    (lmkSteps kMax nL n (k + 1) (cr + 1)).length = nL - (cr + 1) := by
  intro n
  induction n with
  | zero =>
    intro k cr h1 h2 h3
    have hcr : nL ≤ cr + 1 := by
      by_contra hlt
      have : kMax * (cr + 2) ≤ kMax * nL := Nat.mul_le_mul_left _ (by omega)
      nlinarith
    simp only [lmkSteps, List.length_nil]
    omega
  | succ n ih =>
    intro k cr h1 h2 h3
    unfold lmkSteps
    split
    · rename_i hc
      have hcr : cr + 1 < nL := by
        have : kMax * (cr + 1) < kMax * nL := lt_of_le_of_lt hc.2 (Nat.mul_lt_mul_of_pos_right (by omega) hn)
        exact Nat.lt_of_mul_lt_mul_left this
      rw [List.length_cons, ih (k + 1) (cr + 1) (by omega) hc.2 (by nlinarith)]
      omega
    · rename_i hc
      rw [ih (k + 1) cr (by omega) (by nlinarith) (by by_contra h; exact hc ⟨hn, by omega⟩)]

theorem lmkSteps_every (kMax nL : Nat) (hn : 0 < nL) (hle : kMax ≤ nL) : ∀ n k : Nat, (lmkSteps kMax nL n k k).length = n := by
  intro n
  induction n with
  | zero => intro k; rfl
  | succ n ih =>
    intro k
    unfold lmkSteps
    rw [if_pos ⟨hn, by rw [Nat.mul_comm]; exact Nat.mul_le_mul_left _ hle⟩, List.length_cons, ih]

theorem lmkSteps_sorted (kMax nL : Nat) : ∀ n k cr : Nat, (lmkSteps kMax nL n k cr).Pairwise (· < ·) ∧ ∀ s ∈ lmkSteps kMax nL n k cr, k ≤ s ∧ s < k + n := by
  intro n
  induction n with
  | zero => intro k cr; exact ⟨List.Pairwise.nil, by simp [lmkSteps]⟩
  | succ n ih =>
    intro k cr
    unfold lmkSteps
    split
    · have := ih (k + 1) (cr + 1)
      refine ⟨List.pairwise_cons.2 ⟨fun s hs => by have := this.2 s hs; omega, this.1⟩, fun s hs => ?_⟩
      rcases List.mem_cons.1 hs with rfl | hs
      · omega
      · have := this.2 s hs; omega
    · have := ih (k + 1) cr
      exact ⟨this.1, fun s hs => by have := this.2 s hs; omega⟩

/-- **C161**: the 1-D programs create exactly the configured number of landmarks if there are that many steps, otherwise one in every step; at most one per step, at steps of the trajectory. -/
theorem C161_count (kMax nL : Nat) : (landmarkSteps kMax nL).length = min nL kMax ∧ (landmarkSteps kMax nL).Pairwise (· < ·) ∧ ∀ k ∈ landmarkSteps kMax nL, k < kMax := by
  refine ⟨?_, (lmkSteps_sorted kMax nL kMax 0 0).1, fun k hk => by have := (lmkSteps_sorted kMax nL kMax 0 0).2 k hk; omega⟩
  unfold landmarkSteps
  rcases Nat.eq_zero_or_pos nL with rfl | hn
  · have : ∀ n k c, lmkSteps kMax 0 n k c = [] := by
      intro n
      induction n with
      | zero => intros; rfl
      | succ n ih => intro k c; unfold lmkSteps; rw [if_neg (by simp), ih]
    rw [this]
    simp
  rcases le_total kMax nL with hle | hle
  · rw [lmkSteps_every kMax nL hn hle, min_eq_right hle]
  · obtain ⟨n, rfl⟩ : ∃ n, kMax = n + 1 := ⟨kMax - 1, by omega⟩
    unfold lmkSteps
    rw [if_pos ⟨hn, by simp⟩, List.length_cons, lmkSteps_length (n + 1) nL hn hle n 0 0 (by omega) (by simp) (by simp), min_eq_left hle]
    omega

theorem lmkStepsOrb_length (kMax nL : Nat) (hn : 0 < nL) (hle : nL ≤ kMax) : ∀ n k cr : Nat, k + 1 + n = kMax → kMax * cr < (k + 1) * nL → (k + 1) * nL ≤ kMax * (cr + 1) →
    (lmkStepsOrb kMax nL n (k + 1) (cr + 1)).length = nL - (cr + 1) := by
  intro n
  induction n with
  | zero =>
    intro k cr h1 h2 h3
    have hk : k + 1 = kMax := by omega
    rw [hk] at h2 h3
    have := Nat.le_of_mul_le_mul_left h3 (by omega)
    simp only [lmkStepsOrb, List.length_nil]
    omega
  | succ n ih =>
    intro k cr h1 h2 h3
    unfold lmkStepsOrb
    have hdiv : kMax * (cr + 1) / nL ≤ k + 1 ↔ kMax * (cr + 1) < (k + 2) * nL := by
      rw [← Nat.lt_add_one_iff, Nat.div_lt_iff_lt_mul hn]
    split
    · rename_i hc
      rw [hdiv] at hc
      have hcr : cr + 1 < nL := by
        have : kMax * (cr + 1) < kMax * nL := lt_of_lt_of_le hc (Nat.mul_le_mul_right _ (by omega))
        exact Nat.lt_of_mul_lt_mul_left this
      rw [List.length_cons, ih (k + 1) (cr + 1) (by omega) hc (by nlinarith)]
      omega
    · rename_i hc
      rw [hdiv, not_lt] at hc
      rw [ih (k + 1) cr (by omega) (by nlinarith) hc]

/-- **C161** for the program with descriptors, whose test uses integers. -/
theorem C161_count_orb (kMax nL : Nat) (hn : 0 < nL) : ∃ l, landmarkStepsOrb kMax nL = some l ∧ l.length = min nL kMax := by
  refine ⟨_, by rw [landmarkStepsOrb, if_neg (by omega)], ?_⟩
  rcases le_total kMax nL with hle | hle
  · rw [min_eq_right hle]
    have : ∀ n k, (lmkStepsOrb kMax nL n k k).length = n := by
      intro n
      induction n with
      | zero => intro k; rfl
      | succ n ih =>
        intro k
        unfold lmkStepsOrb
        rw [if_pos (by rw [← Nat.lt_add_one_iff, Nat.div_lt_iff_lt_mul hn]; nlinarith), List.length_cons, ih]
    exact this _ _
  · rw [min_eq_left hle]
    obtain ⟨n, rfl⟩ : ∃ n, kMax = n + 1 := ⟨kMax - 1, by omega⟩
    unfold lmkStepsOrb
    rw [if_pos (by simp), List.length_cons, lmkStepsOrb_length (n + 1) nL hn hle n 0 0 (by omega) (by simpa using hn) (by simpa using hle)]
    omega

/-- Non-trivial instance: the setting that goes wrong in the 2-D programs (C123), 100 landmarks in 199 steps. -/
example : (landmarkSteps 199 100).length = 100 ∧ (landmarkSteps 5 2) = [0, 3] := ⟨(C161_count 199 100).1, by decide⟩

/-! ### C162: the parameter arrays -/

section params
variable {K : Type} [Zero K] {P D : Nat}

theorem mapM_id_map (l : List K) : (l.map some).mapM id = some l := by
  induction l with
  | nil => rfl
  | cons a l ih => rw [List.map_cons, List.mapM_cons, ih]; rfl

theorem written_init (traj : List (Fin P → K)) (lms : List (Fin D → K)) (h : traj ≠ []) : ∃ ps : List K, written (initParams traj lms) = some ps ∧
    ps.length = numParameters P D traj.length lms.length := by
  obtain ⟨ps, h1, h2, -⟩ := BatchProps.C108_round_trip traj lms h
  exact ⟨ps, by rw [written, h1, Option.bind_some, mapM_id_map], h2⟩

theorem read_iff (T M : Nat) (ps : List K) (hT : 1 ≤ T) : (readParams P D T M ps).isSome = true ↔ numParameters P D T M ≤ ps.length := by
  unfold readParams
  by_cases h : ps.length < numParameters P D T M
  · rw [if_pos (Or.inl h)]
    simp
    omega
  · rw [if_neg (by omega)]
    simp
    omega

/-- What holds of a call of `Evaluate` with an array made for `M'` landmarks while `landmarks_` has `M`. -/
theorem num_le (T M M' : Nat) (hD : 0 < D) : numParameters P D T M ≤ numParameters P D T M' ↔ M ≤ M' := by
  unfold numParameters
  rw [Nat.add_le_add_iff_left, Nat.mul_le_mul_right_iff hD]

/-- **C162**, exactly when the 1-D program stays within its arrays: the initial map must have at least as many landmarks as the ground truth. -/
theorem C162_iff_1d (hD : 0 < D) (gt ini : List (Fin P → K) × List (Fin D → K)) (hgt : gt.1 ≠ []) (hlen : ini.1.length = gt.1.length) :
    (run1d gt ini).isSome = true ↔ gt.2.length ≤ ini.2.length := by
  have h1 : 1 ≤ gt.1.length := List.length_pos_of_ne_nil hgt
  have hini : ini.1 ≠ [] := by intro h; rw [h] at hlen; simp at hlen; omega
  obtain ⟨g, e1, e2⟩ := written_init gt.1 gt.2 hgt
  obtain ⟨p, f1, f2⟩ := written_init ini.1 ini.2 hini
  obtain ⟨r1, hr1⟩ := Option.isSome_iff_exists.1 ((read_iff gt.1.length gt.2.length g h1).2 e2.ge)
  unfold run1d
  rw [e1, Option.bind_some, hr1, Option.bind_some, f1, Option.bind_some]
  have key := (read_iff (P := P) (D := D) ini.1.length gt.2.length p (by omega))
  rw [f2, num_le _ _ _ hD] at key
  rw [← key]
  have h3 : (readParams P D ini.1.length gt.2.length g).isSome = true := by rw [hlen, hr1]; rfl
  obtain ⟨r3, hr3⟩ := Option.isSome_iff_exists.1 h3
  rw [hr3]
  cases readParams P D ini.1.length gt.2.length p <;> simp

/-- **C162**, exactly when the 2-D program stays within its arrays: the initial map must have at most as many landmarks as the ground truth. -/
theorem C162_iff_2d (hD : 0 < D) (gt ini : List (Fin P → K) × List (Fin D → K)) (hgt : gt.1 ≠ []) (hlen : ini.1.length = gt.1.length) :
    (run2d gt ini).isSome = true ↔ ini.2.length ≤ gt.2.length := by
  have h1 : 1 ≤ gt.1.length := List.length_pos_of_ne_nil hgt
  have hini : ini.1 ≠ [] := by intro h; rw [h] at hlen; simp at hlen; omega
  obtain ⟨g, e1, e2⟩ := written_init gt.1 gt.2 hgt
  obtain ⟨p, f1, f2⟩ := written_init ini.1 ini.2 hini
  obtain ⟨r1, hr1⟩ := Option.isSome_iff_exists.1 ((read_iff gt.1.length gt.2.length g h1).2 e2.ge)
  obtain ⟨r2, hr2⟩ := Option.isSome_iff_exists.1 ((read_iff ini.1.length ini.2.length p (by omega)).2 f2.ge)
  unfold run2d
  rw [e1, Option.bind_some, hr1, Option.bind_some, f1, Option.bind_some, hr2, Option.bind_some]
  have key := (read_iff (P := P) (D := D) ini.1.length ini.2.length g (by omega))
  rw [e2, hlen, num_le _ _ _ hD] at key
  rw [← key, hlen]
  cases readParams P D gt.1.length ini.2.length g <;> simp

/-- **C162**, the full statement: whatever initial map is drawn, the programs stay within their parameter arrays. -/
def C162_full : Prop := ∀ (gt ini : List (Fin 1 → ℝ) × List (Fin 1 → ℝ)), gt.1 ≠ [] → ini.1.length = gt.1.length → (run1d gt ini).isSome = true ∧ (run2d gt ini).isSome = true

/-- **C162** (partial): with an initial map of as many landmarks as the ground truth. Missing: other maps (`C162_violated`). -/
theorem C162_same_partial (hD : 0 < D) (gt ini : List (Fin P → K) × List (Fin D → K)) (hgt : gt.1 ≠ []) (hlen : ini.1.length = gt.1.length) (hm : ini.2.length = gt.2.length) :
    (run1d gt ini).isSome = true ∧ (run2d gt ini).isSome = true :=
  ⟨(C162_iff_1d hD gt ini hgt hlen).2 hm.ge, (C162_iff_2d hD gt ini hgt hlen).2 hm.le⟩

/-- **C162** is false of both programs: the 1-D one reads outside when no landmark was drawn into the initial map, the 2-D one when more are drawn than there are. -/
theorem C162_violated : ¬ C162_full ∧ run1d (K := ℝ) (P := 1) (D := 1) ([![0], ![1]], [![2]]) ([![0], ![1]], []) = none ∧
    run2d (K := ℝ) (P := 1) (D := 1) ([![0], ![1]], [![2]]) ([![0], ![1]], [![2], ![3]]) = none := by
  have a : run1d (K := ℝ) (P := 1) (D := 1) ([![0], ![1]], [![2]]) ([![0], ![1]], []) = none := by
    have := C162_iff_1d (K := ℝ) (P := 1) (D := 1) one_pos ([![0], ![1]], [![2]]) ([![0], ![1]], []) (by simp) rfl
    simpa using this
  have b : run2d (K := ℝ) (P := 1) (D := 1) ([![0], ![1]], [![2]]) ([![0], ![1]], [![2], ![3]]) = none := by
    have := C162_iff_2d (K := ℝ) (P := 1) (D := 1) one_pos ([![0], ![1]], [![2]]) ([![0], ![1]], [![2], ![3]]) (by simp) rfl
    simpa using this
  refine ⟨fun h => ?_, a, b⟩
  have := (h ([![0], ![1]], [![2]]) ([![0], ![1]], []) (by simp) rfl).1
  rw [a] at this
  cases this

/-- **C162** with known data associations (numbers of true landmarks, or -2 for false alarms): the initial map never has more landmarks than there are, so the 2-D program is safe; it has as many, so that the 1-D program is
safe, exactly if the last landmark was measured. -/
theorem C162_known_partial {Zt L : Type} (inv : Zt → L) (draw : Nat → Bool) (zs : List (Zt × Int)) (nL : Nat) (h : ∀ z ∈ zs, z.2 < nL ∧ z.2 ≠ -1) :
    ∃ map, initMap inv draw zs = some map ∧ map.length ≤ nL ∧ (0 < nL → (nL ≤ map.length ↔ ∃ z ∈ zs, z.2 = (nL : Int) - 1)) := by
  obtain ⟨n, named, free, h1, h2, h3, h4, h5, h6⟩ := BatchProps.C109_map inv draw zs
  have hfree : free = [] := by
    have : (zs.filter fun z => decide (z.2 = -1)) = [] := List.filter_eq_nil_iff.2 fun z hz => by simpa using (h z hz).2
    rw [h6, this]
    rfl
  have hn : n ≤ nL := by
    rcases Nat.eq_zero_or_pos n with rfl | hn
    · omega
    · obtain ⟨z, hz, hzn⟩ := h4 hn
      have := (h z hz).1
      omega
  refine ⟨_, h1, by rw [List.length_append, h2, hfree]; simpa using hn, fun h0 => ?_⟩
  rw [List.length_append, h2, hfree, List.length_nil, Nat.add_zero]
  constructor
  · intro hle
    have : n = nL := by omega
    subst this
    exact h4 h0
  · rintro ⟨z, hz, hzn⟩
    have := h3 z hz
    omega

/-- Two true landmarks and one found by the initial guess: the 1-D program reads out of bounds, the 2-D program does not; with as many both are fine. -/
example : (run1d (K := ℚ) (P := 1) (D := 1) ([0, 1], [5, 6]) ([0, 2], [7])).isSome = false ∧ (run2d (K := ℚ) (P := 1) (D := 1) ([0, 1], [5, 6]) ([0, 2], [7])).isSome = true ∧
    (run1d (K := ℚ) (P := 1) (D := 1) ([0, 1], [5, 6]) ([0, 2], [7, 8])).isSome = true := by
  refine ⟨?_, (C162_iff_2d (K := ℚ) (P := 1) (D := 1) one_pos ([0, 1], [5, 6]) ([0, 2], [7]) (by simp) rfl).2 (by simp),
    (C162_same_partial (K := ℚ) (P := 1) (D := 1) one_pos ([0, 1], [5, 6]) ([0, 2], [7, 8]) (by simp) rfl rfl).1⟩
  rw [← Bool.not_eq_true]
  intro h
  have := (C162_iff_1d (K := ℚ) (P := 1) (D := 1) one_pos ([0, 1], [5, 6]) ([0, 2], [7]) (by simp) rfl).1 h
  simp at this

end params

/-! ### C163: the least squares problem with known data associations -/

theorem mapM_some_of {α β : Type} (f : α → Option β) (g : α → β) : ∀ l : List α, (∀ x ∈ l, f x = some (g x)) → l.mapM f = some (l.map g) := by
  intro l
  induction l with
  | nil => intro _; rfl
  | cons a l ih =>
    intro h
    rw [List.mapM_cons, h a (List.mem_cons_self ..), ih fun x hx => h x (List.mem_cons_of_mem _ hx)]
    rfl

/-- The squared errors of the odometry `odo` and of the measurements `Z` that name a landmark, each over its variance; `x k` are the poses, `m j` the landmarks. -/
noncomputable def squaredErrors (vx vz : ℝ) (odo : List ℝ) (Z : List (List (ℝ × Int))) (x m : Nat → ℝ) : ℝ :=
  (odo.zipIdx.map fun p => (x (p.2 + 1) - x p.2 - p.1) ^ 2 / vx).sum +
    (Z.zipIdx.map fun p => ((p.1.filter fun z => decide (0 ≤ z.2)).map fun z => (m z.2.toNat - x p.2 - z.1) ^ 2 / vz).sum).sum

/-- The poses and landmarks that a parameter vector stands for. -/
def StandsFor (T M : Nat) (ps : List ℝ) (x m : Nat → ℝ) : Prop :=
  ps.length = numParameters 1 1 T M ∧ readParams 1 1 T M ps = some ((List.range T).map (fun k _ => x k), (List.range M).map fun j _ => m j)

theorem standsFor_get (T M : Nat) (ps : List ℝ) (x m : Nat → ℝ) (hT : 1 ≤ T) (h : StandsFor T M ps x m) :
    (∀ k < T, ((0 : ℝ) :: ps)[k]? = some (x k)) ∧ ∀ j < M, ((0 : ℝ) :: ps)[T + j]? = some (m j) := by
  obtain ⟨h1, h2⟩ := h
  unfold numParameters at h1
  unfold readParams numParameters at h2
  rw [if_neg (by omega)] at h2
  simp only [Option.some.injEq, Prod.mk.injEq] at h2
  obtain ⟨h3, h4⟩ := h2
  constructor
  · intro k hk
    have := congrArg (fun l : List (Fin 1 → ℝ) => (l[k]?).map fun f => f 0) h3
    simp only [List.getElem?_map, List.getElem?_range hk, Option.map_some, Option.some.injEq] at this
    cases k with
    | zero => simpa using this
    | succ k =>
      rw [List.getElem?_cons_succ, List.getElem?_eq_getElem (by omega), ← this]
      simp only [Nat.add_one_ne_zero, if_false, Nat.add_sub_cancel, mul_one, Fin.val_zero, add_zero]
      rw [List.getD_eq_getElem?_getD, List.getElem?_eq_getElem (by omega)]
      rfl
  · intro j hj
    have := congrArg (fun l : List (Fin 1 → ℝ) => (l[j]?).map fun f => f 0) h4
    simp only [List.getElem?_map, List.getElem?_range hj, Option.map_some, Option.some.injEq] at this
    obtain ⟨T, rfl⟩ : ∃ t, T = t + 1 := ⟨T - 1, by omega⟩
    rw [show T + 1 + j = (T + j) + 1 by omega, List.getElem?_cons_succ, List.getElem?_eq_getElem (by omega), ← this]
    simp only [Nat.add_sub_cancel, mul_one, Fin.val_zero, add_zero]
    rw [List.getD_eq_getElem?_getD, List.getElem?_eq_getElem (by omega)]
    rfl

theorem sum_map_flatMap {α β : Type} (f : β → ℝ) (g : α → List β) (l : List α) : ((l.flatMap g).map f).sum = (l.map fun a => ((g a).map f).sum).sum := by
  induction l with
  | nil => rfl
  | cons a l ih => rw [List.flatMap_cons, List.map_append, List.sum_append, ih]; rfl

/-- **C163**: with known data associations, the problem given to Ceres stays within the parameter array and its cost is half the sum of the squared errors of the odometry and of the measurements that name a
landmark, each over its variance, for the poses (the first at 0) and landmarks that the parameter vector stands for; false alarms do not count. -/
theorem C163_cost (vx vz : ℝ) (hvx : 0 ≤ vx) (hvz : 0 ≤ vz) (odo : List ℝ) (Z : List (List (ℝ × Int))) (T M : Nat) (hT : odo.length + 1 = T) (hZ : Z.length = T)
    (hda : ∀ l ∈ Z, ∀ z ∈ l, z.2 < M) (ps : List ℝ) (x m : Nat → ℝ) (h : StandsFor T M ps x m) :
    daCost vx vz odo Z T ps = some (squaredErrors vx vz odo Z x m / 2) := by
  obtain ⟨hx, hm⟩ := standsFor_get T M ps x m (by omega) h
  let g : Block → ℝ := fun r => ((0 : ℝ) :: ps).getD r.b 0 - ((0 : ℝ) :: ps).getD r.a 0 - r.obs
  have hx' : ∀ k < T, ((0 : ℝ) :: ps).getD k 0 = x k := fun k hk => by rw [List.getD_eq_getElem?_getD, hx k hk]; rfl
  have hm' : ∀ j < M, ((0 : ℝ) :: ps).getD (T + j) 0 = m j := fun j hj => by rw [List.getD_eq_getElem?_getD, hm j hj]; rfl
  have hres : ∀ r : Block, r ∈ odoBlocks vx odo ++ measBlocks vz T Z → BatchSim.residual (0 :: ps) r = some (g r / r.sd) := by
    intro r hr
    have hin : ∃ p q, ((0 : ℝ) :: ps)[r.a]? = some p ∧ ((0 : ℝ) :: ps)[r.b]? = some q := by
      rcases List.mem_append.1 hr with hr | hr
      · obtain ⟨p, hp, rfl⟩ := List.mem_map.1 hr
        have := List.mem_zipIdx' hp
        exact ⟨_, _, hx p.2 (by omega), hx (p.2 + 1) (by omega)⟩
      · obtain ⟨p, hp, hr⟩ := List.mem_flatMap.1 hr
        obtain ⟨z, hz, hzr⟩ := List.mem_filterMap.1 hr
        have hpz := List.mem_zipIdx' hp
        split at hzr
        · cases hzr
        · rename_i hneg
          cases hzr
          have := hda p.1 (by rw [hpz.2]; exact List.getElem_mem _) z hz
          exact ⟨_, _, hx p.2 (by omega), hm z.2.toNat (by omega)⟩
    obtain ⟨p, q, hp, hq⟩ := hin
    unfold BatchSim.residual
    rw [hp, hq]
    simp only [g, List.getD_eq_getElem?_getD, hp, hq, Option.getD_some]
  unfold daCost cost
  rw [mapM_some_of _ (fun r => g r / r.sd) _ hres, Option.map_some, List.map_map, List.map_append, List.sum_append]
  congr 2
  unfold squaredErrors
  congr 1
  · unfold odoBlocks
    rw [List.map_map]
    refine congrArg List.sum (List.map_congr_left fun p hp => ?_)
    have := List.mem_zipIdx' hp
    simp only [Function.comp, g]
    rw [hx' _ (by omega), hx' _ (by omega), div_pow, Real.sq_sqrt hvx]
  · unfold measBlocks
    rw [sum_map_flatMap]
    refine congrArg List.sum (List.map_congr_left fun p hp => ?_)
    have hpz := List.mem_zipIdx' hp
    have hl : ∀ l : List (ℝ × Int), (∀ z ∈ l, z.2 < M) →
        ((l.filterMap fun z => if z.2 < 0 then none else some (⟨p.2, T + z.2.toNat, z.1, √vz⟩ : Block)).map ((fun r => r ^ 2) ∘ fun r => g r / r.sd)) =
          (l.filter fun z => decide (0 ≤ z.2)).map fun z => (m z.2.toNat - x p.2 - z.1) ^ 2 / vz := by
      intro l
      induction l with
      | nil => intro _; rfl
      | cons z l ih =>
        intro hl
        have hz := hl z (List.mem_cons_self ..)
        by_cases h0 : z.2 < 0
        · rw [List.filterMap_cons, if_pos h0, List.filter_cons, if_neg (by simpa using h0)]
          exact ih fun y hy => hl y (List.mem_cons_of_mem _ hy)
        · rw [List.filterMap_cons, if_neg h0, List.filter_cons, if_pos (by simpa using h0)]
          rw [List.map_cons, List.map_cons, ih fun y hy => hl y (List.mem_cons_of_mem _ hy)]
          congr 1
          simp only [g, Function.comp]
          rw [hm' _ (by omega), hx' _ (by omega), div_pow, Real.sq_sqrt hvz]
    rw [hl p.1 fun z hz => hda p.1 (by rw [hpz.2]; exact List.getElem_mem _) z hz]

/-- Non-trivial instance: two poses, one landmark seen from both, one false alarm. -/
example : daCost 1 4 [1] [[(3, 0)], [(2, 0), (7, -2)]] 2 [2, 4] = some (((2 - 0 - 1) ^ 2 / 1 + ((4 - 0 - 3) ^ 2 / 4 + (4 - 2 - 2) ^ 2 / 4)) / 2) := by
  have h : StandsFor 2 1 [2, 4] (fun k => if k = 0 then 0 else 2) (fun _ => 4) := by
    refine ⟨rfl, ?_⟩
    unfold readParams numParameters
    rw [if_neg (by simp)]
    simp [List.range_succ]
  rw [C163_cost 1 4 zero_le_one (by norm_num) [1] [[(3, 0)], [(2, 0), (7, -2)]] 2 1 rfl rfl (by decide +kernel) _ _ _ h]
  simp [squaredErrors]

/-! ### C164: the weights of the least squares problem -/

open ProbabilityTheory in
/-- The logarithm of the probability density of the odometry and of the measurements that name a landmark, with normal noise of variances `vx` and `vz`. -/
noncomputable def logDensity (vx vz : NNReal) (odo : List ℝ) (Z : List (List (ℝ × Int))) (x m : Nat → ℝ) : ℝ :=
  (odo.zipIdx.map fun p => Real.log (gaussianPDFReal (x (p.2 + 1) - x p.2) vx p.1)).sum +
    (Z.zipIdx.map fun p => ((p.1.filter fun z => decide (0 ≤ z.2)).map fun z => Real.log (gaussianPDFReal (m z.2.toNat - x p.2) vz z.1)).sum).sum

/-- **C164**, the full statement: up to a constant the cost is minus the logarithm of the density of the data that the program has simulated, whose odometry has the variance `vardx dT²` (C158). -/
def C164_full : Prop := ∀ (vardx varzr dT : NNReal) (odo : List ℝ) (Z : List (List (ℝ × Int))) (T M : Nat), 0 < vardx → 0 < varzr → 0 < dT → odo.length + 1 = T → Z.length = T →
  (∀ l ∈ Z, ∀ z ∈ l, z.2 < M) → ∃ C, ∀ ps x m, StandsFor T M ps x m → daCost vardx varzr odo Z T ps = some (C - logDensity (vardx * dT ^ 2) varzr odo Z x m)

theorem log_pdf (v : NNReal) (hv : 0 < v) (a b o : ℝ) : (b - a - o) ^ 2 / v / 2 = -Real.log (√(2 * Real.pi * v)) - Real.log (ProbabilityTheory.gaussianPDFReal (b - a) v o) := by
  have h0 : (0 : ℝ) < √(2 * Real.pi * v) := Real.sqrt_pos.2 (by have : (0 : ℝ) < v := hv; positivity)
  unfold ProbabilityTheory.gaussianPDFReal
  rw [Real.log_mul (inv_ne_zero h0.ne') (Real.exp_ne_zero _), Real.log_exp, Real.log_inv]
  have : (v : ℝ) ≠ 0 := (show (0 : ℝ) < v from hv).ne'
  field_simp
  ring

theorem sum_div' {α : Type} (f : α → ℝ) (c : ℝ) (l : List α) : (l.map fun a => f a / c).sum = (l.map f).sum / c := by
  induction l with
  | nil => simp
  | cons a l ih => simp only [List.map_cons, List.sum_cons, ih, add_div]

theorem sum_sub_const {α : Type} (f g : α → ℝ) (c : ℝ) (l : List α) (h : ∀ a ∈ l, f a = c - g a) : (l.map f).sum = l.length * c - (l.map g).sum := by
  induction l with
  | nil => simp
  | cons a l ih =>
    simp only [List.map_cons, List.sum_cons, List.length_cons, h a (List.mem_cons_self ..), ih fun b hb => h b (List.mem_cons_of_mem _ hb)]
    push_cast
    ring

theorem errors_density (vx vz : NNReal) (hx : 0 < vx) (hz : 0 < vz) (odo : List ℝ) (Z : List (List (ℝ × Int))) (x m : Nat → ℝ) :
    squaredErrors vx vz odo Z x m / 2 = (odo.length * -Real.log (√(2 * Real.pi * vx)) +
      ((Z.map fun l => ((l.filter fun z => decide (0 ≤ z.2)).length : ℝ) * -Real.log (√(2 * Real.pi * vz))).sum)) - logDensity vx vz odo Z x m := by
  unfold squaredErrors logDensity
  have h1 : (odo.zipIdx.map fun p => (x (p.2 + 1) - x p.2 - p.1) ^ 2 / (vx : ℝ) / 2).sum = odo.length * -Real.log (√(2 * Real.pi * vx)) -
      (odo.zipIdx.map fun p => Real.log (ProbabilityTheory.gaussianPDFReal (x (p.2 + 1) - x p.2) vx p.1)).sum := by
    rw [sum_sub_const _ (fun p : ℝ × Nat => Real.log (ProbabilityTheory.gaussianPDFReal (x (p.2 + 1) - x p.2) vx p.1)) (-Real.log (√(2 * Real.pi * vx))) _ fun p _ => log_pdf vx hx _ _ _,
      List.length_zipIdx]
  have h2 : (Z.zipIdx.map fun p => ((p.1.filter fun z => decide (0 ≤ z.2)).map fun z => (m z.2.toNat - x p.2 - z.1) ^ 2 / (vz : ℝ)).sum / 2).sum =
      ((Z.map fun l => ((l.filter fun z => decide (0 ≤ z.2)).length : ℝ) * -Real.log (√(2 * Real.pi * vz))).sum) -
      (Z.zipIdx.map fun p => ((p.1.filter fun z => decide (0 ≤ z.2)).map fun z => Real.log (ProbabilityTheory.gaussianPDFReal (m z.2.toNat - x p.2) vz z.1)).sum).sum := by
    have : ∀ (Z : List (List (ℝ × Int))) (k : Nat), ((Z.zipIdx k).map fun p => ((p.1.filter fun z => decide (0 ≤ z.2)).map fun z => (m z.2.toNat - x p.2 - z.1) ^ 2 / (vz : ℝ)).sum / 2).sum =
      ((Z.map fun l => ((l.filter fun z => decide (0 ≤ z.2)).length : ℝ) * -Real.log (√(2 * Real.pi * vz))).sum) -
      ((Z.zipIdx k).map fun p => ((p.1.filter fun z => decide (0 ≤ z.2)).map fun z => Real.log (ProbabilityTheory.gaussianPDFReal (m z.2.toNat - x p.2) vz z.1)).sum).sum := by
      intro Z
      induction Z with
      | nil => intro k; simp
      | cons l Z ih =>
        intro k
        rw [List.zipIdx_cons]
        simp only [List.map_cons, List.sum_cons]
        rw [ih, ← sum_div', sum_sub_const _ (fun z : ℝ × Int => Real.log (ProbabilityTheory.gaussianPDFReal (m z.2.toNat - x k) vz z.1)) (-Real.log (√(2 * Real.pi * vz))) _
          fun z _ => log_pdf vz hz _ _ _]
        ring
    exact this Z 0
  rw [add_div, ← sum_div', ← sum_div', h1, h2]
  ring

/-- **C164** (partial): with time steps of one second. Missing: others (`C164_violated`). -/
theorem C164_unit_partial (vardx varzr : NNReal) (odo : List ℝ) (Z : List (List (ℝ × Int))) (T M : Nat) (hx : 0 < vardx) (hz : 0 < varzr) (hT : odo.length + 1 = T) (hZ : Z.length = T)
    (hda : ∀ l ∈ Z, ∀ z ∈ l, z.2 < M) : ∃ C, ∀ ps x m, StandsFor T M ps x m → daCost vardx varzr odo Z T ps = some (C - logDensity (vardx * 1 ^ 2) varzr odo Z x m) := by
  refine ⟨odo.length * -Real.log (√(2 * Real.pi * vardx)) + ((Z.map fun l => ((l.filter fun z => decide (0 ≤ z.2)).length : ℝ) * -Real.log (√(2 * Real.pi * varzr))).sum), fun ps x m h => ?_⟩
  rw [C163_cost vardx varzr vardx.2 varzr.2 odo Z T M hT hZ hda ps x m h, errors_density vardx varzr hx hz odo Z x m, one_pow, mul_one]

/-- **C164** is false of the code for other time steps: with steps of two seconds the odometry is given four times the weight it should have. -/
theorem C164_violated : ¬ C164_full := by
  intro h
  obtain ⟨C, hC⟩ := h 1 1 2 [0] [[], []] 2 0 one_pos one_pos two_pos rfl rfl (by simp)
  have key : ∀ a : ℝ, a ^ 2 / 2 = C - (-Real.log (√(2 * Real.pi * ((1 * 2 ^ 2 : NNReal) : ℝ))) - a ^ 2 / ((1 * 2 ^ 2 : NNReal) : ℝ) / 2) := by
    intro a
    have hs : StandsFor 2 0 [a] (fun k => if k = 0 then 0 else a) (fun _ => 0) := by
      refine ⟨rfl, ?_⟩
      unfold readParams numParameters
      rw [if_neg (by simp)]
      simp [List.range_succ]
    have h1 := hC [a] _ _ hs
    rw [C163_cost ((1 : NNReal) : ℝ) ((1 : NNReal) : ℝ) (by simp) (by simp) [0] [[], []] 2 0 rfl rfl (by simp) _ _ _ hs] at h1
    have h2 := Option.some.inj h1
    have h3 := log_pdf (1 * 2 ^ 2) (by norm_num) 0 a 0
    simp [squaredErrors, logDensity] at h2
    rw [h2]
    simp at h3 ⊢
    linarith
  have k0 := key 0
  have k1 := key 1
  norm_num at k0 k1
  linarith

/-- Two poses, one landmark seen twice, and a false alarm meet the hypotheses. -/
example : ∃ C, ∀ ps x m, StandsFor 2 1 ps x m → daCost (1 : NNReal) (4 : NNReal) [1] [[(3, 0)], [(2, 0), (7, -2)]] 2 ps =
    some (C - logDensity ((1 : NNReal) * 1 ^ 2) 4 [1] [[(3, 0)], [(2, 0), (7, -2)]] x m) :=
  C164_unit_partial 1 4 [1] [[(3, 0)], [(2, 0), (7, -2)]] 2 1 (by norm_num) (by norm_num) rfl rfl (by simp; rintro a b (⟨-, rfl⟩ | ⟨-, rfl⟩) <;> norm_num)

/-! ### C165: the error terms of the 2-D program -/

open Real Matrix

/-- `NormalizeAngle` gives the angle modulo a full turn in `[-π, π)`. -/
theorem C165_angle (a : ℝ) : -π ≤ normalizeAngle a ∧ normalizeAngle a < π ∧ ∃ k : ℤ, normalizeAngle a = a + k * (2 * π) := by
  have hp := pi_pos
  have h1 := Int.floor_le ((a + π) / (2 * π))
  have h2 := Int.lt_floor_add_one ((a + π) / (2 * π))
  rw [le_div_iff₀ (by positivity)] at h1
  rw [div_lt_iff₀ (by positivity)] at h2
  unfold normalizeAngle
  refine ⟨by nlinarith, by nlinarith, -⌊(a + π) / (2 * π)⌋, ?_⟩
  push_cast
  ring

theorem normalizeAngle_zero (a : ℝ) : normalizeAngle a = 0 ↔ ∃ k : ℤ, a = k * (2 * π) := by
  have hp := pi_pos
  obtain ⟨h1, h2, k, hk⟩ := C165_angle a
  constructor
  · intro h
    refine ⟨-k, ?_⟩
    push_cast
    linarith
  · rintro ⟨j, hj⟩
    have e : normalizeAngle a = ((j + k : ℤ) : ℝ) * (2 * π) := by rw [hk, hj]; push_cast; ring
    rw [e] at h1 h2 ⊢
    have l1 : (-1 : ℝ) < ((j + k : ℤ) : ℝ) := by nlinarith
    have l2 : ((j + k : ℤ) : ℝ) < 1 := by nlinarith
    have : j + k = 0 := by
      have l1' : -1 < j + k := by exact_mod_cast l1
      have l2' : j + k < 1 := by exact_mod_cast l2
      omega
    rw [this]
    simp

theorem infoSqrt_zero {n : Nat} (v : Fin n → ℝ) (hv : ∀ i, 0 < v i) (e : Fin n → ℝ) : infoSqrt v *ᵥ e = 0 ↔ ∀ i, e i = 0 := by
  rw [funext_iff]
  refine forall_congr' fun i => ?_
  rw [infoSqrt, mulVec_diagonal, Pi.zero_apply, mul_eq_zero]
  have : 1 / √(v i) ≠ 0 := by have := Real.sqrt_pos.2 (hv i); positivity
  tauto

/-- **C165** for two consecutive poses: the three errors vanish exactly if the second pose is the first moved by the odometry, the angle modulo a full turn. -/
theorem C165_pose (v : Fin 3 → ℝ) (hv : ∀ i, 0 < v i) (u a b : Fin 3 → ℝ) : poseError (infoSqrt v) u a b = 0 ↔
    b 0 = a 0 + (cos (a 2) * u 0 - sin (a 2) * u 1) ∧ b 1 = a 1 + (sin (a 2) * u 0 + cos (a 2) * u 1) ∧ ∃ k : ℤ, b 2 = a 2 + u 2 + k * (2 * π) := by
  have hcs := cos_sq_add_sin_sq (a 2)
  unfold poseError
  rw [infoSqrt_zero v hv, Fin.forall_fin_succ, Fin.forall_fin_succ, Fin.forall_fin_succ]
  simp only [rotation, mulVec, dotProduct, transpose_apply, Fin.sum_univ_two, of_apply, cons_val, Fin.isValue, Fin.succ_zero_eq_one, Fin.succ_one_eq_two, IsEmpty.forall_iff, and_true,
    normalizeAngle_zero]
  constructor
  · rintro ⟨h1, h2, k, hk⟩
    refine ⟨?_, ?_, k, by linarith⟩
    · linear_combination cos (a 2) * h1 - sin (a 2) * h2 - (b 0 - a 0) * hcs
    · linear_combination sin (a 2) * h1 + cos (a 2) * h2 - (b 1 - a 1) * hcs
  · rintro ⟨h1, h2, k, hk⟩
    refine ⟨?_, ?_, k, by linarith⟩
    · rw [h1, h2]
      linear_combination u 0 * hcs
    · rw [h1, h2]
      linear_combination u 1 * hcs

/-- **C165** for two consecutive poses, in terms of the motion model: the pose that the model steps to has no error. -/
theorem C165_pose_step (v : Fin 3 → ℝ) (hv : ∀ i, 0 < v i) (sk skm : Motion.St 3) (u : Fin 3 → ℝ) (dT : TimeStamp.TS) (ht : TimeStampProps.Normalised skm.t)
    (hd : TimeStampProps.Normalised dT) (ho : Motion.NoOverflow skm.t dT) : ∃ s, Motion.step2d sk skm u dT = some s ∧ poseError (infoSqrt v) u skm.x s.x = 0 := by
  obtain ⟨s, h1, h2, h3, ⟨-, -, k, hk⟩, -⟩ := MotionProps.C61_odometry2d sk skm u dT ht hd ho
  exact ⟨s, h1, (C165_pose v hv u skm.x s.x).2 ⟨h2, h3, k, hk⟩⟩

/-- **C165** for a measurement: the two errors vanish exactly if the landmark is where the measurement model puts it. -/
theorem C165_observation (v : Fin 2 → ℝ) (hv : ∀ i, 0 < v i) (R : Matrix (Fin 2) (Fin 2) ℝ) (z : Fin 2 → ℝ) (hz : 0 < z 0) (a : Fin 3 → ℝ) (m : Fin 2 → ℝ) :
    obsError (infoSqrt v) z a m = 0 ↔ m = (Meas.rngBrgInv R a z).1 := by
  have hsq : (a 0 - m 0) * (a 0 - m 0) + (a 1 - m 1) * (a 1 - m 1) = (m 0 - a 0) ^ 2 + (m 1 - a 1) ^ 2 := by ring
  unfold obsError
  rw [infoSqrt_zero v hv, Fin.forall_fin_succ, Fin.forall_fin_succ, hsq]
  simp only [Meas.rngBrgInv, cons_val, Fin.isValue, Fin.succ_zero_eq_one, IsEmpty.forall_iff, and_true, normalizeAngle_zero]
  constructor
  · rintro ⟨h1, k, hk⟩
    have hne : m 0 - a 0 ≠ 0 ∨ m 1 - a 1 ≠ 0 := by
      by_contra h
      push Not at h
      rw [h.1, h.2] at h1
      simp at h1
      linarith
    obtain ⟨c1, c2⟩ := VParkProps.cos_sin_atan2 (m 1 - a 1) (m 0 - a 0) hne
    have hang : Meas.atan2 (m 1 - a 1) (m 0 - a 0) = (a 2 + z 1) + k * (2 * π) := by linarith
    rw [hang, cos_add_int_mul_two_pi, sub_eq_zero.1 h1] at c1
    rw [hang, sin_add_int_mul_two_pi, sub_eq_zero.1 h1] at c2
    funext i
    fin_cases i
    · simp only [Fin.zero_eta, cons_val]; linarith
    · simp only [Fin.mk_one, cons_val]; linarith
  · intro h
    have h0 : m 0 - a 0 = z 0 * cos (a 2 + z 1) := by rw [h]; simp
    have h1 : m 1 - a 1 = z 0 * sin (a 2 + z 1) := by rw [h]; simp
    rw [h0, h1]
    obtain ⟨k, hk⟩ := Meas.atan2_polar_mod hz (a 2 + z 1)
    refine ⟨?_, k, by rw [hk]; ring⟩
    rw [show (z 0 * cos (a 2 + z 1)) ^ 2 + (z 0 * sin (a 2 + z 1)) ^ 2 = z 0 ^ 2 * (cos (a 2 + z 1) ^ 2 + sin (a 2 + z 1) ^ 2) by ring, cos_sq_add_sin_sq, mul_one, Real.sqrt_sq hz.le, sub_self]

/-- The errors are weighted by the square roots of the inverse variances. -/
theorem C165_weights (v : Fin 3 → ℝ) (hv : ∀ i, 0 < v i) (w : Fin 2 → ℝ) (hw : ∀ i, 0 < w i) (u a b : Fin 3 → ℝ) (z m : Fin 2 → ℝ) :
    (∀ i, (poseError (infoSqrt v) u a b i) ^ 2 = (poseError 1 u a b i) ^ 2 / v i) ∧ ∀ i, (obsError (infoSqrt w) z a m i) ^ 2 = (obsError 1 z a m i) ^ 2 / w i := by
  constructor <;> intro i
  · unfold poseError
    rw [one_mulVec, infoSqrt, mulVec_diagonal, mul_pow, div_pow, one_pow, Real.sq_sqrt (hv i).le]
    ring
  · unfold obsError
    rw [one_mulVec, infoSqrt, mulVec_diagonal, mul_pow, div_pow, one_pow, Real.sq_sqrt (hw i).le]
    ring

/-- Non-trivial instance: at `(0, 0)` heading up, two forward and one to the left leads to `(-1, 2)`. -/
example : poseError (infoSqrt fun _ => 4) ![2, 1, 1] ![0, 0, π / 2] ![-1, 2, π / 2 + 1 - 2 * π] = 0 := by
  rw [C165_pose _ (fun _ => by norm_num)]
  refine ⟨by simp, by simp, -1, ?_⟩
  simp only [cons_val]
  push_cast
  ring

/-! ### C166: where the false alarms of the 1-D programs fall -/

/-- **C166**, the full statement: a false alarm can fall anywhere where a landmark can be measured; measurements of this model are signed (C160). -/
def C166_full : Prop := ∀ (c : Sim.Cfg) (code : Int) (z : ℝ), 0 ≤ c.rMin → c.rMin < c.rMax → c.rMin ≤ |z| → |z| < c.rMax →
  ∃ (u : Nat → ℝ) (fuel pos : Nat), (∀ i, 0 ≤ u i ∧ u i < 1) ∧ clutterLoop c u code fuel 1 0 = some ([(z, code)], pos)

/-- **C166** (partial): anywhere ahead of the robot. Missing: behind it, where landmarks are measured too (`C166_violated`). -/
theorem C166_ahead_partial (c : Sim.Cfg) (code : Int) (z : ℝ) (h0 : 0 ≤ c.rMin) (hc : c.rMin < c.rMax) (h1 : c.rMin ≤ z) (h2 : z < c.rMax) :
    ∃ (u : Nat → ℝ) (fuel pos : Nat), (∀ i, 0 ≤ u i ∧ u i < 1) ∧ clutterLoop c u code fuel 1 0 = some ([(z, code)], pos) := by
  have hr : 0 < c.rMax := by linarith
  refine ⟨fun _ => z / c.rMax, 1, 1, fun _ => ⟨div_nonneg (by linarith) hr.le, (div_lt_one hr).2 h2⟩, ?_⟩
  have e : z / c.rMax * c.rMax = z := div_mul_cancel₀ _ hr.ne'
  simp [clutterLoop, Sim.clutterRange, e, not_lt.2 h1]

/-- **C166** is false of the code: no false alarm is ever negative. -/
theorem C166_violated : ¬ C166_full := by
  intro h
  obtain ⟨u, fuel, pos, hu, he⟩ := h ⟨2, 0, 1, 1⟩ (-2) (-1) le_rfl (by norm_num) (by norm_num) (by norm_num)
  have := (clutterLoop_spec _ u (-2) fuel (by norm_num) hu 1 0 _ he).2 (-1, -2) (by simp)
  norm_num at this

/-- Every range of the sensor ahead of the robot can be an alarm, such as 5. -/
example : ∃ (u : Nat → ℝ) (fuel pos : Nat), (∀ i, 0 ≤ u i ∧ u i < 1) ∧ clutterLoop ⟨10, 1, 1, 1⟩ u (-2) fuel 1 0 = some ([(5, -2)], pos) :=
  C166_ahead_partial ⟨10, 1, 1, 1⟩ (-2) 5 (by norm_num) (by norm_num) (by norm_num) (by norm_num)

end BatchSimProps
end RFS
