import Verif.Model.SimLandmarks
import Mathlib.Tactic.NormNum
import Mathlib.Tactic.Linarith
import Mathlib.Tactic.Ring

/-!
C259: when, from where and with which numbers the simulators create landmarks.
-/

set_option linter.unusedSectionVars false

namespace RFS
namespace SimLmk
open Real

/-! ### Lemmas -/

/-- A loop over `n` steps from `k` on that takes a step if it is not before `f` of the number of steps taken. -/
def taken (f : Nat → Nat) : Nat → Nat → Nat → List Nat
  | 0, _, _ => []
  | n + 1, k, c => if f c ≤ k then k :: taken f n (k + 1) (c + 1) else taken f n (k + 1) c

theorem taken_get (f : Nat → Nat) : ∀ (n k c i m : Nat), ((∀ i, f i < f (i + 1)) ∨ ((∀ i, f i ≤ i) ∧ c ≤ k)) →
    ((taken f n k c)[i]? = some m ↔ m = max (k + i) (f (c + i)) ∧ m < k + n)
  | 0, k, c, i, m, h => by
    simp only [taken, List.getElem?_nil]
    constructor
    · intro h; cases h
    · rintro ⟨h1, h2⟩; omega
  | n + 1, k, c, i, m, h => by
    unfold taken
    split
    · rename_i hf
      cases i with
      | zero =>
        simp only [List.getElem?_cons_zero, Option.some.injEq, Nat.add_zero]
        constructor
        · rintro rfl; omega
        · rintro ⟨h1, h2⟩; omega
      | succ i =>
        simp only [List.getElem?_cons_succ]
        rw [taken_get f n (k + 1) (c + 1) i m (h.imp id fun h => ⟨h.1, by omega⟩), show k + 1 + i = k + (i + 1) by omega, show c + 1 + i = c + (i + 1) by omega,
          show k + 1 + n = k + (n + 1) by omega]
    · rename_i hf
      have hm : ∀ i, f i < f (i + 1) := by
        rcases h with h | h
        · exact h
        · exact absurd ((h.1 c).trans h.2) hf
      have hg : ∀ i, f c + i ≤ f (c + i) := by
        intro i
        induction i with
        | zero => simp
        | succ i ih => have := hm (c + i); rw [show c + (i + 1) = c + i + 1 by omega]; omega
      rw [taken_get f n (k + 1) c i m (.inl hm)]
      have := hg i
      constructor
      · rintro ⟨h1, h2⟩; exact ⟨by omega, by omega⟩
      · rintro ⟨h1, h2⟩; exact ⟨by omega, by omega⟩

theorem sim_taken (q : Nat) : ∀ n k c, Sim.lmkSteps q n k c = taken (fun i => q * i) n k c
  | 0, _, _ => rfl
  | n + 1, k, c => by
    unfold Sim.lmkSteps taken
    rw [sim_taken q n, sim_taken q n]

theorem batch_taken (kMax nL : Nat) (h : 0 < nL) : ∀ n k c, BatchSim.lmkSteps kMax nL n k c = taken (fun i => (kMax * i + (nL - 1)) / nL) n k c
  | 0, _, _ => rfl
  | n + 1, k, c => by
    unfold BatchSim.lmkSteps taken
    rw [batch_taken kMax nL h n, batch_taken kMax nL h n]
    have : (0 < nL ∧ kMax * c ≤ k * nL) ↔ (kMax * c + (nL - 1)) / nL ≤ k := by
      rw [← Nat.lt_succ_iff (m := (kMax * c + (nL - 1)) / nL), Nat.div_lt_iff_lt_mul h, Nat.succ_mul]
      constructor
      · rintro ⟨-, h2⟩; omega
      · intro h2; exact ⟨h, by omega⟩
    simp only [this]

theorem orb_taken (kMax nL : Nat) : ∀ n k c, BatchSim.lmkStepsOrb kMax nL n k c = taken (fun i => kMax * i / nL) n k c
  | 0, _, _ => rfl
  | n + 1, k, c => by
    unfold BatchSim.lmkStepsOrb taken
    rw [orb_taken kMax nL n, orb_taken kMax nL n]

/-! ### C259 -/

/-- **C259**: in the plane and in space, landmark `i` is created in step `i * (kMax / nLandmarks)`, but at most one in each step and none in step 0. -/
theorem C259_steps (kMax nL : Nat) (hn : 0 < nL) : ∃ ks, Sim.landmarkSteps kMax nL = some ks ∧ ∀ i k, ks[i]? = some k ↔ k = max (i + 1) (kMax / nL * i) ∧ k < kMax := by
  refine ⟨_, by rw [Sim.landmarkSteps, if_neg (by omega)], fun i k => ?_⟩
  rw [sim_taken, taken_get]
  · simp only [Nat.zero_add]
    constructor
    · rintro ⟨h1, h2⟩; exact ⟨by omega, by omega⟩
    · rintro ⟨h1, h2⟩; exact ⟨by omega, by omega⟩
  · rcases Nat.eq_zero_or_pos (kMax / nL) with h | h
    · right; rw [h]; simp
    · left; intro i; exact Nat.mul_lt_mul_of_pos_left (by omega) h

/-- **C259**: in the 1-D programs landmark `i` is created in the first step that is not before the fraction `i / nLandmarks` of the run, but at most one in each step. -/
theorem C259_steps1 (kMax nL : Nat) (hn : 0 < nL) (i k : Nat) : (BatchSim.landmarkSteps kMax nL)[i]? = some k ↔
    (k < kMax ∧ i ≤ k ∧ (kMax : ℚ) * i / nL ≤ k) ∧ ∀ k' < k, k' < i ∨ (k' : ℚ) < kMax * i / nL := by
  have hq : (0 : ℚ) < nL := by exact_mod_cast hn
  have e : ∀ j : Nat, (kMax : ℚ) * i / nL ≤ j ↔ (kMax * i + (nL - 1)) / nL ≤ j := by
    intro j
    rw [div_le_iff₀ hq, ← Nat.lt_succ_iff (m := (kMax * i + (nL - 1)) / nL), Nat.div_lt_iff_lt_mul hn, Nat.succ_mul]
    have : (kMax : ℚ) * i ≤ j * nL ↔ kMax * i ≤ j * nL := by exact_mod_cast Iff.rfl
    rw [this]; omega
  rw [BatchSim.landmarkSteps, batch_taken kMax nL hn, taken_get]
  · simp only [Nat.zero_add, ← not_le, e]
    generalize (kMax * i + (nL - 1)) / nL = x
    constructor
    · rintro ⟨rfl, h2⟩
      exact ⟨⟨h2, by omega, by omega⟩, fun k' hk => by omega⟩
    · rintro ⟨⟨h1, h2, h3⟩, h4⟩
      refine ⟨?_, h1⟩
      by_contra hne
      have := h4 (max i x) (by omega)
      omega
  · rcases lt_or_ge kMax nL with h | h
    · right
      refine ⟨fun i => ?_, le_rfl⟩
      rw [← Nat.lt_succ_iff, Nat.div_lt_iff_lt_mul hn, Nat.succ_mul]
      have : kMax * i ≤ i * nL := by rw [mul_comm i]; exact Nat.mul_le_mul_right i h.le
      omega
    · left
      intro i
      rw [← Nat.succ_le_iff, Nat.succ_eq_add_one, Nat.le_div_iff_mul_le hn, Nat.add_mul, Nat.mul_succ]
      have := Nat.div_mul_le_self (kMax * i + (nL - 1)) nL
      omega

/-- **C259**: the same with descriptors, where the fraction is rounded down. -/
theorem C259_stepsOrb (kMax nL : Nat) (hn : 0 < nL) : ∃ ks, BatchSim.landmarkStepsOrb kMax nL = some ks ∧ ∀ i k, ks[i]? = some k ↔ k = max i (kMax * i / nL) ∧ k < kMax := by
  refine ⟨_, by rw [BatchSim.landmarkStepsOrb, if_neg (by omega)], fun i k => ?_⟩
  rw [orb_taken, taken_get]
  · simp only [Nat.zero_add]
  · rcases lt_or_ge kMax nL with h | h
    · right
      refine ⟨fun i => ?_, le_rfl⟩
      apply Nat.div_le_of_le_mul
      exact Nat.mul_le_mul_right i h.le
    · left
      intro i
      rw [← Nat.succ_le_iff, Nat.succ_eq_add_one, Nat.le_div_iff_mul_le hn, Nat.add_mul, Nat.mul_succ]
      have := Nat.div_mul_le_self (kMax * i) nL
      omega

theorem landmarksAt_get (kind : Sim.Kind) (rMax : ℝ) (u : Nat → ℝ) (poses : List (Fin 3 → ℝ)) : ∀ (ks : List Nat) (pos : Nat) (r : List (Fin 2 → ℝ) × Nat),
    landmarksAt kind rMax u poses ks pos = some r → r.2 = pos + 2 * ks.length ∧ r.1.length = ks.length ∧
      ∀ i k : Nat, ks[i]? = some k → ∃ x, poses[k]? = some x ∧ r.1[i]? = some (Sim.newLandmark kind rMax x (u (pos + 2 * i)) (u (pos + 2 * i + 1)))
  | [], pos, r, h => by cases h; simp
  | k :: ks, pos, r, h => by
    unfold landmarksAt at h
    obtain ⟨x, hx, h⟩ := Option.bind_eq_some_iff.1 h
    obtain ⟨r', hr, rfl⟩ := Option.map_eq_some_iff.1 h
    obtain ⟨h1, h2, h3⟩ := landmarksAt_get kind rMax u poses ks _ r' hr
    refine ⟨by simp [h1]; ring, by simp [h2], fun i k' hk => ?_⟩
    cases i with
    | zero =>
      simp only [List.getElem?_cons_zero, Option.some.injEq] at hk
      subst hk
      exact ⟨x, hx, by simp⟩
    | succ i =>
      obtain ⟨x', e1, e2⟩ := h3 i k' (by simpa using hk)
      refine ⟨x', e1, ?_⟩
      rw [show pos + 2 * (i + 1) = pos + 2 + 2 * i by ring]
      simpa using e2

theorem landmarksAt1_get (rMax : ℝ) (u : Nat → ℝ) (poses : List ℝ) : ∀ (ks : List Nat) (pos : Nat) (r : List ℝ × Nat), landmarksAt1 rMax u poses ks pos = some r →
    r.2 = pos + ks.length ∧ r.1.length = ks.length ∧ ∀ i k : Nat, ks[i]? = some k → ∃ x, poses[k]? = some x ∧ r.1[i]? = some (x + u (pos + i) * rMax)
  | [], pos, r, h => by cases h; simp
  | k :: ks, pos, r, h => by
    unfold landmarksAt1 at h
    obtain ⟨x, hx, h⟩ := Option.bind_eq_some_iff.1 h
    obtain ⟨r', hr, rfl⟩ := Option.map_eq_some_iff.1 h
    obtain ⟨h1, h2, h3⟩ := landmarksAt1_get rMax u poses ks _ r' hr
    refine ⟨by simp [h1]; ring, by simp [h2], fun i k' hk => ?_⟩
    cases i with
    | zero =>
      simp only [List.getElem?_cons_zero, Option.some.injEq] at hk
      subst hk
      exact ⟨x, hx, by simp [Meas.rng1dInv]⟩
    | succ i =>
      obtain ⟨x', e1, e2⟩ := h3 i k' (by simpa using hk)
      refine ⟨x', e1, ?_⟩
      rw [show pos + (i + 1) = pos + 1 + i by ring]
      simpa using e2

/-- **C259**: in the plane, landmark `i` is seen from the pose of its step at the range and bearing given by the numbers `2 i` and `2 i + 1`. -/
theorem C259_landmarks (rMax : ℝ) (u : Nat → ℝ) (kMax nL : Nat) (poses : List (Fin 3 → ℝ)) (pos : Nat) (r : List (Fin 2 → ℝ) × Nat) (hn : 0 < nL)
    (h : generate2d .rngBrg rMax u kMax nL poses pos = some r) :
    r.2 = pos + 2 * r.1.length ∧ ∀ i < r.1.length, ∃ x m, poses[max (i + 1) (kMax / nL * i)]? = some x ∧ r.1[i]? = some m ∧
      m 0 = x 0 + u (pos + 2 * i) * rMax * cos (x 2 + 2 * π * u (pos + 2 * i + 1)) ∧ m 1 = x 1 + u (pos + 2 * i) * rMax * sin (x 2 + 2 * π * u (pos + 2 * i + 1)) := by
  obtain ⟨ks, hk, h⟩ := Option.bind_eq_some_iff.1 h
  obtain ⟨h1, h2, h3⟩ := landmarksAt_get _ _ _ _ _ _ _ h
  refine ⟨by rw [h1, h2], fun i hi => ?_⟩
  obtain ⟨ks', e1, e2⟩ := C259_steps kMax nL hn
  rw [hk] at e1
  cases e1
  have hik : ks[i]? = some (ks[i]'(by omega)) := List.getElem?_eq_getElem _
  obtain ⟨x, e3, e4⟩ := h3 i _ hik
  refine ⟨x, _, by rw [← ((e2 i _).1 hik).1]; exact e3, e4, ?_, ?_⟩
  · simp only [Sim.newLandmark, Meas.rngBrgInv, Matrix.cons_val_zero, Matrix.cons_val_one]
    rw [show u (pos + 2 * i + 1) * 2 * π = 2 * π * u (pos + 2 * i + 1) by ring]
  · simp only [Sim.newLandmark, Meas.rngBrgInv, Matrix.cons_val_zero, Matrix.cons_val_one]
    rw [show u (pos + 2 * i + 1) * 2 * π = 2 * π * u (pos + 2 * i + 1) by ring]

/-- **C259**: in one dimension, landmark `i` lies ahead of the pose of its step by the part of the range that number `i` gives. -/
theorem C259_landmarks1 (rMax : ℝ) (u : Nat → ℝ) (kMax nL : Nat) (poses : List ℝ) (pos : Nat) (r : List ℝ × Nat) (h : generate1d rMax u kMax nL poses pos = some r) :
    r.2 = pos + r.1.length ∧ r.1.length = (BatchSim.landmarkSteps kMax nL).length ∧
      ∀ i k : Nat, (BatchSim.landmarkSteps kMax nL)[i]? = some k → ∃ x, poses[k]? = some x ∧ r.1[i]? = some (x + u (pos + i) * rMax) := by
  obtain ⟨h1, h2, h3⟩ := landmarksAt1_get _ _ _ _ _ _ h
  exact ⟨by rw [h1, h2], h2, h3⟩

/-- **C259**: the same with descriptors. -/
theorem C259_landmarksOrb (rMax : ℝ) (u : Nat → ℝ) (kMax nL : Nat) (poses : List ℝ) (pos : Nat) (r : List ℝ × Nat) (hn : 0 < nL) (h : generateOrb rMax u kMax nL poses pos = some r) :
    r.2 = pos + r.1.length ∧ ∀ i < r.1.length, ∃ x, poses[max i (kMax * i / nL)]? = some x ∧ r.1[i]? = some (x + u (pos + i) * rMax) := by
  obtain ⟨ks, hk, h⟩ := Option.bind_eq_some_iff.1 h
  obtain ⟨h1, h2, h3⟩ := landmarksAt1_get _ _ _ _ _ _ h
  refine ⟨by rw [h1, h2], fun i hi => ?_⟩
  obtain ⟨ks', e1, e2⟩ := C259_stepsOrb kMax nL hn
  rw [hk] at e1
  cases e1
  have hik : ks[i]? = some (ks[i]'(by omega)) := List.getElem?_eq_getElem _
  obtain ⟨x, e3, e4⟩ := h3 i _ hik
  exact ⟨x, by rw [← ((e2 i _).1 hik).1]; exact e3, e4⟩

/-- A pose for every step is enough: no pose is read outside of the trajectory. -/
theorem C259_safe (kind : Sim.Kind) (rMax : ℝ) (u : Nat → ℝ) (kMax nL : Nat) (poses : List (Fin 3 → ℝ)) (pos : Nat) (hn : 0 < nL) (hp : kMax ≤ poses.length) :
    (generate2d kind rMax u kMax nL poses pos).isSome = true := by
  obtain ⟨ks, e1, e2⟩ := C259_steps kMax nL hn
  have key : ∀ (ks : List Nat) (pos : Nat), (∀ k ∈ ks, k < poses.length) → (landmarksAt kind rMax u poses ks pos).isSome = true := by
    intro ks
    induction ks with
    | nil => intros; rfl
    | cons k ks ih =>
      intro pos hk
      unfold landmarksAt
      rw [List.getElem?_eq_getElem (hk k (by simp))]
      simp [ih (pos + 2) fun k' h => hk k' (by simp [h])]
  rw [generate2d, e1, Option.bind_some]
  refine key ks pos fun k hk => ?_
  obtain ⟨i, hi⟩ := List.getElem?_of_mem hk
  have := ((e2 i k).1 hi).2
  omega

/-- The delivered setting, 3000 steps and 50 landmarks: landmark 0 is created in step 1 and landmark 7 in step 420. -/
example : ∃ ks, Sim.landmarkSteps 3000 50 = some ks ∧ ks[0]? = some 1 ∧ ks[7]? = some 420 := by
  obtain ⟨ks, h1, h2⟩ := C259_steps 3000 50 (by omega)
  exact ⟨ks, h1, (h2 0 1).2 (by decide), (h2 7 420).2 (by decide)⟩

/-- 7 landmarks in 20 steps of the 1-D programs: landmark 1 in step 3, the first one after 20 / 7. -/
example : (BatchSim.landmarkSteps 20 7)[1]? = some 3 := by decide

end SimLmk
end RFS
