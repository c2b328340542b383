import Verif.Lemmas.MeasModels

/-! C56 (measurement models invert), C57 (bearings are wrapped), C58 (detection probability agrees with measurability). -/

namespace RFS
namespace MeasProps
open Real Matrix Meas

/-! ### C56 -/

/-- **C56**, range-bearing: whatever fuel lets `measure` finish, `inverseMeasure` of its result is the landmark. (Also for range 0.) -/
theorem C56_rngbrg (cfg : Cfg) (R R' : Matrix (Fin 2) (Fin 2) ℝ) (fuel : Nat) (x : Fin 3 → ℝ) (Sx : Matrix (Fin 3) (Fin 3) ℝ) (m : Fin 2 → ℝ)
    (Sm : Matrix (Fin 2) (Fin 2) ℝ) (o : Out 2 2 3) (ho : rngBrg cfg R fuel x Sx m Sm = some o) : (rngBrgInv R' x o.z).1 = m := by
  obtain ⟨b, hb, rfl⟩ := Option.map_eq_some_iff.1 ho
  have hc : cos (x 2 + b) = cos (atan2 (m 1 - x 1) (m 0 - x 0)) := by
    rw [cos_add, wrap_cos hb, wrap_sin hb, ← cos_add]; congr 1; ring
  have hs : sin (x 2 + b) = sin (atan2 (m 1 - x 1) (m 0 - x 0)) := by
    rw [sin_add, wrap_cos hb, wrap_sin hb, ← sin_add]; congr 1; ring
  funext i
  fin_cases i
  · simp only [rngBrgInv, Fin.zero_eta, Matrix.cons_val_zero, Matrix.cons_val_one, hc, sqrt_mul_cos_atan2]
    ring
  · simp only [rngBrgInv, Fin.mk_one, Matrix.cons_val_zero, Matrix.cons_val_one, hs, sqrt_mul_sin_atan2]
    ring

/-- `measure` does finish: together with `C56_rngbrg`, total correctness. -/
theorem C56_rngbrg_total (cfg : Cfg) (R R' : Matrix (Fin 2) (Fin 2) ℝ) (x : Fin 3 → ℝ) (Sx : Matrix (Fin 3) (Fin 3) ℝ) (m : Fin 2 → ℝ)
    (Sm : Matrix (Fin 2) (Fin 2) ℝ) : ∃ o N, (∀ fuel, N ≤ fuel → rngBrg cfg R fuel x Sx m Sm = some o) ∧ (rngBrgInv R' x o.z).1 = m := by
  obtain ⟨o, N, h⟩ := rngBrg_total cfg R x Sx m Sm
  exact ⟨o, N, h, C56_rngbrg cfg R R' N x Sx m Sm o (h N le_rfl)⟩

/-- The other direction, range-bearing: measuring the landmark obtained from a measurement with positive range and bearing in `(-π, π)` gives the
measurement back. -/
theorem C56_rngbrg_back (cfg : Cfg) (R R' : Matrix (Fin 2) (Fin 2) ℝ) (fuel : Nat) (x : Fin 3 → ℝ) (Sx : Matrix (Fin 3) (Fin 3) ℝ) (z : Fin 2 → ℝ)
    (Sm : Matrix (Fin 2) (Fin 2) ℝ) (h0 : 0 < z 0) (h1 : -π < z 1) (h2 : z 1 < π) (o : Out 2 2 3)
    (ho : rngBrg cfg R fuel x Sx (rngBrgInv R' x z).1 Sm = some o) : o.z = z := by
  obtain ⟨b, hb, rfl⟩ := Option.map_eq_some_iff.1 ho
  have e0 : (rngBrgInv R' x z).1 0 - x 0 = z 0 * cos (x 2 + z 1) := by simp [rngBrgInv]
  have e1 : (rngBrgInv R' x z).1 1 - x 1 = z 0 * sin (x 2 + z 1) := by simp [rngBrgInv]
  rw [e0, e1] at hb ⊢
  obtain ⟨k, hk⟩ := atan2_polar_mod h0 (x 2 + z 1)
  obtain ⟨hb1, hb2, -, k', hk'⟩ := wrap_some hb
  rw [hk] at hk'
  have hkk : b = z 1 + ((k + k' : ℤ) : ℝ) * (2 * π) := by rw [hk']; push_cast; ring
  have hz : k + k' = 0 := by
    have hp := Real.pi_pos
    have l1 : ((k + k' : ℤ) : ℝ) < 1 := by
      by_contra hcon
      have := mul_le_mul_of_nonneg_right (not_lt.1 hcon) (by positivity : (0 : ℝ) ≤ 2 * π)
      linarith
    have l2 : (-1 : ℝ) < ((k + k' : ℤ) : ℝ) := by
      by_contra hcon
      have := mul_le_mul_of_nonneg_right (not_lt.1 hcon) (by positivity : (0 : ℝ) ≤ 2 * π)
      linarith
    have l1' : k + k' < 1 := by exact_mod_cast l1
    have l2' : -1 < k + k' := by exact_mod_cast l2
    omega
  have hbz : b = z 1 := by rw [hkk, hz]; simp
  have hr : √((z 0 * cos (x 2 + z 1)) ^ 2 + (z 0 * sin (x 2 + z 1)) ^ 2) = z 0 := by
    rw [show (z 0 * cos (x 2 + z 1)) ^ 2 + (z 0 * sin (x 2 + z 1)) ^ 2 = z 0 ^ 2 * (cos (x 2 + z 1) ^ 2 + sin (x 2 + z 1) ^ 2) by ring,
      cos_sq_add_sin_sq, mul_one, Real.sqrt_sq h0.le]
  funext i
  fin_cases i
  · simp [hr]
  · simp [hbz]

/-- **C56**, plane: both directions. -/
theorem C56_xy (cfg : Cfg) (R R' : Matrix (Fin 2) (Fin 2) ℝ) (x : Fin 3 → ℝ) (Sx : Matrix (Fin 3) (Fin 3) ℝ) (Sm : Matrix (Fin 2) (Fin 2) ℝ) :
    (∀ m, (xyInv R' x (xy cfg R x Sx m Sm).z).1 = m) ∧ ∀ z, (xy cfg R x Sx (xyInv R' x z).1 Sm).z = z := by
  have h := sin_sq_add_cos_sq (x 2)
  constructor
  · intro m
    funext i
    fin_cases i
    · simp only [xyInv, xy, Fin.zero_eta, Matrix.cons_val_zero, Matrix.cons_val_one]
      linear_combination (m 0 - x 0) * h
    · simp only [xyInv, xy, Fin.mk_one, Matrix.cons_val_zero, Matrix.cons_val_one]
      linear_combination (m 1 - x 1) * h
  · intro z
    funext i
    fin_cases i
    · simp only [xyInv, xy, Fin.zero_eta, Matrix.cons_val_zero, Matrix.cons_val_one]
      linear_combination (z 0) * h
    · simp only [xyInv, xy, Fin.mk_one, Matrix.cons_val_zero, Matrix.cons_val_one]
      linear_combination (z 1) * h

/-- **C56**, line: both directions. -/
theorem C56_rng1d (cfg : Cfg) (R R' Sx Sm x : ℝ) :
    (∀ m, (rng1dInv R' x ((rng1d cfg R Sx Sm x m).z 0)).1 = m) ∧ ∀ z, (rng1d cfg R Sx Sm x (rng1dInv R' x z).1).z 0 = z := by
  constructor
  · intro m; simp [rng1dInv, rng1d]
  · intro z; simp [rng1dInv, rng1d]

/-- **C56**, space: both directions, for unit quaternions. -/
theorem C56_6d (cfg : Cfg) (R R' : Matrix (Fin 3) (Fin 3) ℝ) (x : Pose6) (hx : Unit4 x.q) (Sx : Matrix (Fin 7) (Fin 7) ℝ)
    (Sm : Matrix (Fin 3) (Fin 3) ℝ) : (∀ m, (m6dInv R' x (m6d cfg R x Sx m Sm).z).1 = m) ∧ ∀ z, (m6d cfg R x Sx (m6dInv R' x z).1 Sm).z = z := by
  constructor
  · intro m
    simp only [m6dInv, m6d, mulVec_mulVec, rotMat_conj_transpose, rotMat_mul_transpose hx, one_mulVec]
    abel
  · intro z
    simp only [m6dInv, m6d, add_sub_cancel_right, mulVec_mulVec, rotMat_conj_transpose, rotMat_transpose_mul hx, one_mulVec]

/-- **C56**, Victoria Park model: the landmark position and its diameter come back. -/
theorem C56_victoria (cfg : Cfg) (R R' : Matrix (Fin 3) (Fin 3) ℝ) (slb : ℝ) (fuel : Nat) (x m : Fin 3 → ℝ) (Sm : Matrix (Fin 3) (Fin 3) ℝ)
    (o : (Fin 3 → ℝ) × Matrix (Fin 3) (Fin 3) ℝ × Matrix (Fin 3) (Fin 3) ℝ) (ho : vp cfg R slb fuel x m Sm = some o) : (vpInv R' x o.1).1 = m := by
  obtain ⟨p, hp, rfl⟩ := Option.map_eq_some_iff.1 ho
  have h := C56_rngbrg _ _ !![R' 0 0, R' 0 1; R' 1 0, R' 1 1] _ _ _ _ _ _ hp
  have hz : ![p.z 0, p.z 1] = p.z := by funext i; fin_cases i <;> rfl
  funext i
  fin_cases i
  · simp only [vpInv, Fin.zero_eta, Matrix.cons_val_zero, Matrix.cons_val_one, hz, h]
  · simp only [vpInv, Fin.mk_one, Matrix.cons_val_zero, Matrix.cons_val_one, hz, h]
  · simp [vpInv]

/-- **C56**, Victoria Park model: where the landmark is, given the measurement: bearings are counted from the right of the vehicle, so that a quarter turn is straight ahead. -/
theorem C56_victoria_place (cfg : Cfg) (R : Matrix (Fin 3) (Fin 3) ℝ) (slb : ℝ) (fuel : Nat) (x m : Fin 3 → ℝ) (Sm : Matrix (Fin 3) (Fin 3) ℝ)
    (o : (Fin 3 → ℝ) × Matrix (Fin 3) (Fin 3) ℝ × Matrix (Fin 3) (Fin 3) ℝ) (ho : vp cfg R slb fuel x m Sm = some o) :
    m 0 = x 0 + o.1 0 * sin (x 2 + o.1 1) ∧ m 1 = x 1 - o.1 0 * cos (x 2 + o.1 1) ∧ m 2 = o.1 2 ∧ 0 ≤ o.1 0 := by
  have h := C56_victoria cfg R R slb fuel x m Sm o ho
  have e : x 2 - π / 2 + o.1 1 = x 2 + o.1 1 - π / 2 := by ring
  have h0 := congrFun h 0
  have h1 := congrFun h 1
  have h2 := congrFun h 2
  simp only [vpInv, rngBrgInv, vpPose, Matrix.cons_val_zero, Matrix.cons_val_one, Matrix.cons_val, e, cos_sub_pi_div_two, sin_sub_pi_div_two] at h0 h1 h2
  refine ⟨by linarith, by linarith, h2.symm, ?_⟩
  obtain ⟨p, hp, rfl⟩ := Option.map_eq_some_iff.1 ho
  obtain ⟨b, hb, rfl⟩ := Option.map_eq_some_iff.1 hp
  simp only [Matrix.cons_val_zero]
  exact Real.sqrt_nonneg _

/-- A landmark at (3, 4), seen from the origin; and the range 2 at the bearing 1. -/
example (R : Matrix (Fin 2) (Fin 2) ℝ) (cfg : Cfg) : (∃ fuel o, rngBrg cfg R fuel 0 0 ![3, 4] 0 = some o ∧ (rngBrgInv R 0 o.z).1 = ![3, 4]) ∧ ∃ fuel o, rngBrg cfg R fuel 0 0 (rngBrgInv R 0 ![2, 1]).1 0 = some o ∧ o.z = ![2, 1] := by
  obtain ⟨o, N, h1, h2⟩ := C56_rngbrg_total cfg R R 0 0 ![3, 4] 0
  obtain ⟨o', N', h3, -⟩ := C56_rngbrg_total cfg R R 0 0 (rngBrgInv R 0 ![2, 1]).1 0
  exact ⟨⟨N, o, h1 N le_rfl, h2⟩, N', o', h3 N' le_rfl, C56_rngbrg_back cfg R R N' 0 0 ![2, 1] 0 (by norm_num) (by simp; linarith [two_le_pi]) (by simp; linarith [two_le_pi]) o' (h3 N' le_rfl)⟩

/-! ### C57 -/

/-- What it means for an angle to be the wrapped version of another: in `[-π, π]` and congruent modulo `2π`. -/
def IsWrapOf (b raw : ℝ) : Prop := -π ≤ b ∧ b ≤ π ∧ ∃ k : ℤ, b = raw + k * (2 * π)

/-- **C57**, predicted measurement: `measure` ends, and its bearing is the direction of the landmark minus the heading, wrapped. -/
theorem C57_measure (cfg : Cfg) (R : Matrix (Fin 2) (Fin 2) ℝ) (x : Fin 3 → ℝ) (Sx : Matrix (Fin 3) (Fin 3) ℝ) (m : Fin 2 → ℝ)
    (Sm : Matrix (Fin 2) (Fin 2) ℝ) : ∃ o N, (∀ fuel, N ≤ fuel → rngBrg cfg R fuel x Sx m Sm = some o) ∧
      IsWrapOf (o.z 1) (atan2 (m 1 - x 1) (m 0 - x 0) - x 2) ∧ o.z 0 = √((m 0 - x 0) ^ 2 + (m 1 - x 1) ^ 2) := by
  obtain ⟨o, N, h⟩ := rngBrg_total cfg R x Sx m Sm
  refine ⟨o, N, h, ?_⟩
  obtain ⟨b, hb, rfl⟩ := Option.map_eq_some_iff.1 (h N le_rfl)
  obtain ⟨h1, h2, -, hk⟩ := wrap_some hb
  exact ⟨⟨h2, h1, hk⟩, rfl⟩

/-- **C57**, innovation: `calculateInnovation` ends; if it returns `true` the innovation is the range difference together with the wrapped bearing
difference; if it returns `false` one of the active thresholds is exceeded, by the wrapped difference in the case of the bearing. -/
theorem C57_innovation (t : Thr) (zexp zact : Fin 2 → ℝ) : ∃ r N, (∀ fuel, N ≤ fuel → innovation t fuel zexp zact = some r) ∧
    match r with
    | some v => v 0 = zact 0 - zexp 0 ∧ IsWrapOf (v 1) (zact 1 - zexp 1) ∧ (0 < t.range → |v 0| ≤ t.range) ∧ (0 < t.bearing → |v 1| ≤ t.bearing)
    | none => (0 < t.range ∧ t.range < |zact 0 - zexp 0|) ∨ (0 < t.bearing ∧ ∃ b, IsWrapOf b (zact 1 - zexp 1) ∧ t.bearing < |b|) := by
  obtain ⟨c, N, hN, h1, h2, -, hk⟩ := wrap_spec (zact 1 - zexp 1)
  by_cases hr : 0 < t.range ∧ t.range < |zact 0 - zexp 0|
  · exact ⟨none, 0, fun fuel _ => by simp [innovation, hr], Or.inl hr⟩
  · by_cases hb : 0 < t.bearing ∧ t.bearing < |c|
    · refine ⟨none, N, fun fuel hf => ?_, Or.inr ⟨hb.1, c, ⟨h2, h1, hk⟩, hb.2⟩⟩
      simp only [innovation, if_neg hr, hN fuel hf, Option.map_some, if_pos hb]
    · refine ⟨some ![zact 0 - zexp 0, c], N, fun fuel hf => ?_, rfl, ⟨h2, h1, hk⟩, ?_, ?_⟩
      · simp only [innovation, if_neg hr, hN fuel hf, Option.map_some, if_neg hb]
      · intro h; by_contra hcon; exact hr ⟨h, not_le.1 hcon⟩
      · intro h; by_contra hcon; exact hb ⟨h, not_le.1 hcon⟩

/-- Not vacuous: a raw bearing of `3π` is out of range, and comes out as `π`. -/
example : wrap 3 (3 * π) = some π := by
  have hp := Real.pi_pos
  have h1 : π < 3 * π := by linarith
  have h2 : 3 * π - 2 * π = π := by ring
  simp only [wrap, wrapDown, if_pos h1, h2, lt_irrefl, if_false, Option.bind_some, wrapUp]
  rw [if_neg (by linarith)]

/-! ### C58 -/

/-- The sensor's range interval: what `measure` reports as valid. -/
def Near (cfg : Cfg) (r : ℝ) : Prop := |r - cfg.rMax| ≤ cfg.buf ∨ |r - cfg.rMin| ≤ cfg.buf

theorem pdOf_agrees (cfg : Cfg) (hc : cfg.rMin ≤ cfg.rMax) (r : ℝ) :
    (pdOf cfg r).1 = (if inRange cfg r then cfg.pd else 0) ∧ ((pdOf cfg r).2 = true ↔ Near cfg r) := by
  unfold pdOf inRange Near
  by_cases h : r ≤ cfg.rMax ∧ cfg.rMin ≤ r
  · have h' : ¬ (cfg.rMax < r ∨ r < cfg.rMin) := by rintro (h1 | h1) <;> linarith [h.1, h.2]
    simp only [if_pos h, if_neg h', if_true, true_and]
    rw [abs_of_nonpos (by linarith [h.1]), abs_of_nonneg (by linarith [h.2])]
    split_ifs with h2
    · simp only [true_iff]
      rcases h2 with h2 | h2
      · left; linarith
      · right; linarith
    · simp only [Bool.false_eq_true, false_iff]
      rintro (h3 | h3)
      · exact h2 (Or.inl (by linarith))
      · exact h2 (Or.inr (by linarith))
  · have h' : cfg.rMax < r ∨ r < cfg.rMin := by
      by_contra hcon
      push Not at hcon
      exact h hcon
    simp only [if_neg h, if_pos h', Bool.false_eq_true, if_false, true_and]
    rcases h' with h1 | h1
    · rw [abs_of_nonneg (by linarith), abs_of_nonneg (by linarith)]
      split_ifs with h2
      · simp only [true_iff]; left; linarith [h2.1]
      · simp only [Bool.false_eq_true, false_iff]
        rintro (h3 | h3) <;> exact h2 ⟨by linarith, by linarith⟩
    · rw [abs_of_nonpos (by linarith), abs_of_nonpos (by linarith)]
      split_ifs with h2
      · simp only [true_iff]; right; linarith [h2.2]
      · simp only [Bool.false_eq_true, false_iff]
        rintro (h3 | h3) <;> exact h2 ⟨by linarith, by linarith⟩

/-- **C58**, range-bearing: the detection probability is the configured one when `measure` returns `true` and 0 otherwise, and the flag is set exactly
when the range is within the buffer of one of the limits. -/
theorem C58_rngbrg (cfg : Cfg) (hc : cfg.rMin ≤ cfg.rMax) (R : Matrix (Fin 2) (Fin 2) ℝ) (fuel : Nat) (x : Fin 3 → ℝ) (Sx : Matrix (Fin 3) (Fin 3) ℝ)
    (m : Fin 2 → ℝ) (Sm : Matrix (Fin 2) (Fin 2) ℝ) (o : Out 2 2 3) (ho : rngBrg cfg R fuel x Sx m Sm = some o) :
    (pd2d cfg x m).1 = (if o.ok then cfg.pd else 0) ∧
      ((pd2d cfg x m).2 = true ↔ Near cfg √((m 0 - x 0) ^ 2 + (m 1 - x 1) ^ 2)) := by
  obtain ⟨b, -, rfl⟩ := Option.map_eq_some_iff.1 ho
  exact pdOf_agrees cfg hc _

/-- **C58**, plane. -/
theorem C58_xy (cfg : Cfg) (hc : cfg.rMin ≤ cfg.rMax) (R : Matrix (Fin 2) (Fin 2) ℝ) (x : Fin 3 → ℝ) (Sx : Matrix (Fin 3) (Fin 3) ℝ)
    (m : Fin 2 → ℝ) (Sm : Matrix (Fin 2) (Fin 2) ℝ) :
    (pd2d cfg x m).1 = (if (xy cfg R x Sx m Sm).ok then cfg.pd else 0) ∧
      ((pd2d cfg x m).2 = true ↔ Near cfg √((m 0 - x 0) ^ 2 + (m 1 - x 1) ^ 2)) :=
  pdOf_agrees cfg hc _

/-- **C58**, line (no condition on the limits). -/
theorem C58_rng1d (cfg : Cfg) (R Sx Sm x m : ℝ) :
    (pd1d cfg x m).1 = (if (rng1d cfg R Sx Sm x m).ok then cfg.pd else 0) ∧ ((pd1d cfg x m).2 = true ↔ Near cfg |m - x|) := by
  constructor
  · have hok : (rng1d cfg R Sx Sm x m).ok = if cfg.rMax < |m - x| ∨ |m - x| < cfg.rMin then false else true := rfl
    by_cases h : |m - x| ≤ cfg.rMax ∧ cfg.rMin ≤ |m - x|
    · have h' : ¬ (cfg.rMax < |m - x| ∨ |m - x| < cfg.rMin) := by rintro (h1 | h1) <;> linarith [h.1, h.2]
      rw [if_neg h'] at hok
      simp only [hok, pd1d, if_pos h, if_true]
    · have h' : cfg.rMax < |m - x| ∨ |m - x| < cfg.rMin := by by_contra hcon; push Not at hcon; exact h hcon
      rw [if_pos h'] at hok
      simp only [hok, pd1d, if_neg h, Bool.false_eq_true, if_false]
  · simp only [pd1d, Near]
    generalize |m - x| = r
    simp only [abs_le]
    split_ifs with h
    · simp only [true_iff]
      rcases h with h | h
      · left; constructor <;> linarith [h.1, h.2]
      · right; constructor <;> linarith [h.1, h.2]
    · simp only [Bool.false_eq_true, false_iff]
      rintro (h1 | h1)
      · exact h (Or.inl ⟨by linarith [h1.1], by linarith [h1.2]⟩)
      · exact h (Or.inr ⟨by linarith [h1.1], by linarith [h1.2]⟩)

/-- **C58**, space, for unit quaternions. -/
theorem C58_6d (cfg : Cfg) (hc : cfg.rMin ≤ cfg.rMax) (R : Matrix (Fin 3) (Fin 3) ℝ) (x : Pose6) (hx : Unit4 x.q) (Sx : Matrix (Fin 7) (Fin 7) ℝ)
    (m : Fin 3 → ℝ) (Sm : Matrix (Fin 3) (Fin 3) ℝ) :
    (pd6d cfg x m).1 = (if (m6d cfg R x Sx m Sm).ok then cfg.pd else 0) ∧ ((pd6d cfg x m).2 = true ↔ Near cfg (norm3 (m - x.p))) := by
  have h := pdOf_agrees cfg hc (norm3 (m - x.p))
  refine ⟨?_, h.2⟩
  rw [pd6d, h.1]
  simp only [m6d, norm3_rot hx]

/-- The unit quaternion is needed in `C58_6d`: with the quaternion `(0,0,1,1)`, not of length one, a landmark at distance 1 is predicted at distance
`√5`, so that `measure` returns `false` for a sensor of range 2 although the detection probability is the configured one. -/
theorem C58_6d_nonunit_witness : ∃ (cfg : Cfg) (x : Pose6) (m : Fin 3 → ℝ), cfg.rMin ≤ cfg.rMax ∧ 0 < (pd6d cfg x m).1 ∧
    ∀ R Sx Sm, (m6d cfg R x Sx m Sm).ok = false := by
  refine ⟨⟨9 / 10, 0, 2, 0, 0⟩, ⟨![0, 0, 0], ![0, 0, 1, 1]⟩, ![1, 0, 0], by norm_num, ?_, ?_⟩
  · have : norm3 (![1, 0, 0] - ![0, 0, 0]) = 1 := by simp [norm3]
    simp only [pd6d, this, pdOf]
    norm_num
  · intro R Sx Sm
    have : norm3 (rotMat (conj ![0, 0, 1, 1]) *ᵥ (![1, 0, 0] - ![0, 0, 0])) = √5 := by
      unfold norm3
      congr 1
      simp [rotMat, conj, mulVec, dotProduct, Fin.sum_univ_three]
      norm_num
    have h5 : (2 : ℝ) < √5 := by
      rw [Real.lt_sqrt (by norm_num)]; norm_num
    simp only [m6d, this, inRange, if_pos (Or.inl h5)]

/-- Not vacuous: a landmark 3 m away, sensor range `[1, 5]`, buffer `1/2`: detected, and not near a limit. -/
example : (pd1d ⟨9 / 10, 0, 5, 1, 1 / 2⟩ 2 5).1 = 9 / 10 ∧ (pd1d ⟨9 / 10, 0, 5, 1, 1 / 2⟩ 2 5).2 = false := by
  have : |(5 : ℝ) - 2| = 3 := by norm_num
  constructor <;> simp only [pd1d, this] <;> norm_num

end MeasProps
end RFS
