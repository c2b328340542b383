import Verif.Model.VPark
import Verif.Lemmas.MeasModels
import Mathlib.Data.List.GetD
import Mathlib.Analysis.SpecialFunctions.Trigonometric.Bounds
import Mathlib.Analysis.Real.Pi.Bounds

/-! Lemmas for the Victoria Park measurement model: the beams that are counted. -/

set_option linter.unusedSectionVars false

namespace RFS
namespace VPark
open Real Meas

theorem down720_eq (b : Int) : down720 b = if 0 ≤ b then b % 720 else b := by
  induction b using down720.induct with
  | case1 b h ih =>
    rw [down720, if_pos h, ih]
    split <;> split <;> omega
  | case2 b h =>
    rw [down720, if_neg h]
    split <;> omega

theorem up720_eq (b : Int) (hb : b < 720) : up720 b = b % 720 := by
  induction b using up720.induct with
  | case1 b h ih =>
    rw [up720, if_pos h, ih (by omega)]
    omega
  | case2 b h =>
    rw [up720, if_neg h]
    omega

theorem wrap720 (b : Int) : up720 (down720 b) = b % 720 := by
  rw [up720_eq _ (by rw [down720_eq]; split <;> omega), down720_eq]
  split <;> omega

/-- What a beam must read to be counted, src/MeasurementModel_VictoriaPark.cpp 251. -/
def Free (scan : List ℝ) (mr : ℝ) (k : Int) : Prop := mr < scan.getD (k % 720).toNat 0 ∨ scan.getD (k % 720).toNat 0 = 0

open Classical in
theorem beams_spec (scan : List ℝ) (mr : ℝ) : ∀ (n : Nat) (s : Int) (fuel : Nat), n < 720 → n < fuel → (∀ k < n, ((s + (k : Nat)) % 720).toNat < scan.length) →
    beams scan mr ((s + n) % 720) fuel (s % 720) = some ((List.range n).countP fun k => decide (Free scan mr (s + (k : Nat))))
  | 0, s, fuel + 1, _, _, _ => by simp [beams]
  | n + 1, s, fuel + 1, h1, h2, h3 => by
    have ne : s % 720 ≠ (s + ((n + 1 : Nat) : Int)) % 720 := by push_cast; omega
    have h0 : (s % 720).toNat < scan.length := by simpa using h3 0 (by omega)
    have e1 : (s % 720 + 1) % 720 = (s + 1) % 720 := by omega
    have e2 : (s + ((n + 1 : Nat) : Int)) % 720 = (s + 1 + (n : Nat)) % 720 := by push_cast; omega
    have ih := beams_spec scan mr n (s + 1) fuel (by omega) (by omega) (fun k hk => by
      have := h3 (k + 1) (by omega)
      rw [show s + 1 + (k : Int) = s + ((k + 1 : Nat) : Int) by push_cast; ring]
      exact this)
    rw [beams, if_neg ne, List.getElem?_eq_getElem h0, Option.bind_some, e1, e2, ih, Option.map_some, List.range_succ_eq_map, List.countP_cons, List.countP_map]
    have e3 : ((fun k : Nat => decide (Free scan mr (s + (k : Int)))) ∘ Nat.succ) = fun k : Nat => decide (Free scan mr (s + 1 + (k : Int))) := by
      funext k
      simp only [Function.comp]
      rw [show s + ((Nat.succ k : Nat) : Int) = s + 1 + (k : Int) by push_cast; ring]
    rw [e3]
    have e4 : Free scan mr (s + ((0 : Nat) : Int)) ↔ (mr < scan[(s % 720).toNat] ∨ scan[(s % 720).toNat] = 0) := by
      unfold Free
      simp [List.getElem?_eq_getElem h0]
    by_cases hf : mr < scan[(s % 720).toNat] ∨ scan[(s % 720).toNat] = 0
    · rw [if_pos hf, if_pos (decide_eq_true (e4.2 hf))]
    · rw [if_neg hf, if_neg (by rw [decide_eq_true_iff, e4]; exact hf)]
      simp

theorem beams_none (scan : List ℝ) (mr : ℝ) : ∀ (n : Nat) (s : Int) (fuel : Nat), n < 720 → (∃ k < n, scan.length ≤ ((s + (k : Nat)) % 720).toNat) →
    beams scan mr ((s + n) % 720) fuel (s % 720) = none
  | _, s, 0, _, _ => rfl
  | 0, s, fuel + 1, _, h => by
    obtain ⟨k, hk, -⟩ := h
    omega
  | n + 1, s, fuel + 1, h1, h3 => by
    have ne : s % 720 ≠ (s + ((n + 1 : Nat) : Int)) % 720 := by push_cast; omega
    have e1 : (s % 720 + 1) % 720 = (s + 1) % 720 := by omega
    have e2 : (s + ((n + 1 : Nat) : Int)) % 720 = (s + 1 + (n : Nat)) % 720 := by push_cast; omega
    rw [beams, if_neg ne]
    by_cases h0 : (s % 720).toNat < scan.length
    · obtain ⟨k, hk, hl⟩ := h3
      have hk0 : k ≠ 0 := by
        rintro rfl
        simp at hl
        omega
      have ih := beams_none scan mr n (s + 1) fuel (by omega) ⟨k - 1, by omega, by
        rw [show s + 1 + ((k - 1 : Nat) : Int) = s + (k : Int) by omega]
        exact hl⟩
      rw [List.getElem?_eq_getElem h0, Option.bind_some, e1, e2, ih]
      rfl
    · rw [List.getElem?_eq_none (by omega)]
      rfl

/-- The first beam. -/
noncomputable def firstBeam (r b d : ℝ) : Int := ⌈(b - gamma r d) * 720 / (2 * π)⌉

theorem gamma_pos {r d : ℝ} (hr : 0 < r) (hd : 0 < d) : 0 < gamma r d := by
  unfold gamma
  exact Real.arctan_pos.2 (by positivity)

theorem gamma_lt {r d : ℝ} : gamma r d < π / 2 := Real.arctan_lt_pi_div_two _

theorem maxPts_nonneg {r d : ℝ} (hr : 0 < r) (hd : 0 < d) : 0 ≤ maxPts r d := by
  unfold maxPts
  have := gamma_pos hr hd
  exact Int.floor_nonneg.2 (by positivity)

theorem maxPts_lt {r d : ℝ} : maxPts r d < 360 := by
  unfold maxPts
  rw [Int.floor_lt]
  have hp := pi_pos
  have := @gamma_lt r d
  rw [div_lt_iff₀ (by positivity)]
  push_cast
  nlinarith

open Classical in
theorem numPts_spec (scan : List ℝ) {r d : ℝ} (b : ℝ) (hr : 0 < r) (hd : 0 < d) (h : ∀ k < (maxPts r d).toNat, ((firstBeam r b d + (k : Nat)) % 720).toNat < scan.length) :
    numPts scan r b d = some ((List.range (maxPts r d).toNat).countP fun k => decide (Free scan (r - d / 2 - 6 * (3 / 100)) (firstBeam r b d + (k : Nat)))) := by
  have h0 := maxPts_nonneg hr hd
  have h1 := @maxPts_lt r d
  unfold numPts
  simp only [wrap720]
  change (if 0 < Int.tmod ((firstBeam r b d + maxPts r d) % 720 - firstBeam r b d % 720 + 720) 720 then
    beams scan _ ((firstBeam r b d + maxPts r d) % 720) 721 (firstBeam r b d % 720) else some 0) = _
  obtain ⟨n, hn⟩ := Int.eq_ofNat_of_zero_le h0
  rw [hn] at h h1 ⊢
  simp only [Int.toNat_natCast] at h ⊢
  by_cases hn0 : n = 0
  · subst hn0
    rw [if_neg (by simp)]
    rfl
  · rw [if_pos (by rw [Int.tmod_eq_emod_of_nonneg (by omega)]; omega)]
    exact beams_spec scan _ n _ 721 (by omega) (by omega) h

theorem numPts_none (scan : List ℝ) {r d : ℝ} (b : ℝ) (hr : 0 < r) (hd : 0 < d) (h : ∃ k < (maxPts r d).toNat, scan.length ≤ ((firstBeam r b d + (k : Nat)) % 720).toNat) :
    numPts scan r b d = none := by
  have h0 := maxPts_nonneg hr hd
  have h1 := @maxPts_lt r d
  unfold numPts
  simp only [wrap720]
  change (if 0 < Int.tmod ((firstBeam r b d + maxPts r d) % 720 - firstBeam r b d % 720 + 720) 720 then
    beams scan _ ((firstBeam r b d + maxPts r d) % 720) 721 (firstBeam r b d % 720) else some 0) = _
  obtain ⟨n, hn⟩ := Int.eq_ofNat_of_zero_le h0
  rw [hn] at h h1 ⊢
  simp only [Int.toNat_natCast] at h ⊢
  have hn0 : n ≠ 0 := by
    obtain ⟨k, hk, -⟩ := h
    omega
  rw [if_pos (by rw [Int.tmod_eq_emod_of_nonneg (by omega)]; omega)]
  exact beams_none scan _ n _ 721 (by omega) h

/-- The beams that are looked at lie between the first and the last direction of the circle. -/
theorem beam_extent {r d : ℝ} (b : ℝ) (hr : 0 < r) (hd : 0 < d) (k : Nat) (hk : k < (maxPts r d).toNat) :
    b - gamma r d ≤ ((firstBeam r b d + k : Int) : ℝ) * (π / 360) ∧ ((firstBeam r b d + k : Int) : ℝ) * (π / 360) < b + gamma r d := by
  have hp := pi_pos
  have h1 : (b - gamma r d) * 720 / (2 * π) ≤ (firstBeam r b d : ℝ) := Int.le_ceil _
  have h2 : (firstBeam r b d : ℝ) < (b - gamma r d) * 720 / (2 * π) + 1 := Int.ceil_lt_add_one _
  have h3 : (maxPts r d : ℝ) ≤ 2 * gamma r d * 720 / (2 * π) := Int.floor_le _
  have h4 : (k : ℝ) + 1 ≤ maxPts r d := by
    have := maxPts_nonneg hr hd
    have : (k : Int) + 1 ≤ maxPts r d := by omega
    exact_mod_cast this
  have e1 : (b - gamma r d) * 720 / (2 * π) * (π / 360) = b - gamma r d := by field_simp; ring
  have e2 : 2 * gamma r d * 720 / (2 * π) * (π / 360) = 2 * gamma r d := by field_simp; ring
  push_cast
  constructor
  · have := mul_le_mul_of_nonneg_right h1 (by positivity : (0 : ℝ) ≤ π / 360)
    rw [e1] at this
    have hk0 : (0 : ℝ) ≤ k * (π / 360) := by positivity
    nlinarith
  · have h5 : (firstBeam r b d : ℝ) + k < (b - gamma r d) * 720 / (2 * π) + 2 * gamma r d * 720 / (2 * π) := by linarith
    have := mul_lt_mul_of_pos_right h5 (by positivity : (0 : ℝ) < π / 360)
    rw [add_mul, add_mul, e1, e2] at this
    linarith

/-- Conversely, at most one beam between these directions is not looked at. -/
theorem beam_extent_conv {r d : ℝ} (b : ℝ) (hr : 0 < r) (hd : 0 < d) (k : Int) (h1 : b - gamma r d ≤ (k : ℝ) * (π / 360)) (h2 : (k : ℝ) * (π / 360) ≤ b + gamma r d) :
    firstBeam r b d ≤ k ∧ k ≤ firstBeam r b d + maxPts r d := by
  have hp := pi_pos
  have e1 : (b - gamma r d) * 720 / (2 * π) = (b - gamma r d) / (π / 360) := by field_simp; ring
  have e2 : 2 * gamma r d * 720 / (2 * π) = 2 * gamma r d / (π / 360) := by field_simp; ring
  have hq : (0 : ℝ) < π / 360 := by positivity
  constructor
  · unfold firstBeam
    rw [Int.ceil_le, e1, div_le_iff₀ hq]
    exact h1
  · have : k - firstBeam r b d ≤ maxPts r d := by
      unfold maxPts
      rw [Int.le_floor, e2, le_div_iff₀ hq]
      have h3 : (b - gamma r d) / (π / 360) ≤ (firstBeam r b d : ℝ) := by rw [← e1]; exact Int.le_ceil _
      rw [div_le_iff₀ hq] at h3
      push_cast
      rw [sub_mul]
      linarith
    omega

/-- The ray from the sensor in direction `a` meets the circle of diameter `d` about the point with polar coordinates `r, b`. -/
def Hits (r b d a : ℝ) : Prop := ∃ s : ℝ, 0 ≤ s ∧ (s * cos a - r * cos b) ^ 2 + (s * sin a - r * sin b) ^ 2 ≤ (d / 2) ^ 2

theorem hits_of_extent {r b d a : ℝ} (hr : 0 < r) (hd : 0 < d) (h : |a - b| ≤ gamma r d) : Hits r b d a := by
  have hg := @gamma_lt r d
  have hp := pi_pos
  have hc : 0 ≤ cos (a - b) := cos_nonneg_of_neg_pi_div_two_le_of_le (by have := (abs_le.1 h).1; linarith) (by have := (abs_le.1 h).2; linarith)
  refine ⟨r * cos (a - b), by positivity, ?_⟩
  have h1 : |sin (a - b)| ≤ d / 2 / r := by
    have h2 : |sin (a - b)| = sin |a - b| := by
      rcases abs_cases (a - b) with ⟨e, h0⟩ | ⟨e, h0⟩
      · rw [e, abs_of_nonneg (sin_nonneg_of_nonneg_of_le_pi h0 (by rw [e] at h; linarith))]
      · rw [e, sin_neg, abs_of_nonpos (sin_nonpos_of_nonpos_of_neg_pi_le h0.le (by rw [e] at h; linarith))]
    rw [h2]
    have h3 : sin |a - b| ≤ sin (gamma r d) := sin_le_sin_of_le_of_le_pi_div_two (by have := abs_nonneg (a - b); linarith) hg.le h
    refine h3.trans ?_
    unfold gamma
    rw [Real.sin_arctan]
    have hq : 0 < d / 2 / r := by positivity
    apply div_le_self hq.le
    rw [Real.one_le_sqrt]
    nlinarith [sq_nonneg (d / 2 / r)]
  have h4 : sin (a - b) ^ 2 ≤ (d / 2 / r) ^ 2 := by
    rw [← sq_abs]
    exact pow_le_pow_left₀ (abs_nonneg _) h1 2
  have e : (r * cos (a - b) * cos a - r * cos b) ^ 2 + (r * cos (a - b) * sin a - r * sin b) ^ 2 = r ^ 2 * sin (a - b) ^ 2 := by
    have ea : b = a - (a - b) := by ring
    have hcb : cos b = cos a * cos (a - b) + sin a * sin (a - b) := by conv_lhs => rw [ea, cos_sub]
    have hsb : sin b = sin a * cos (a - b) - cos a * sin (a - b) := by conv_lhs => rw [ea, sin_sub]
    rw [hcb, hsb]
    have := sin_sq_add_cos_sq a
    linear_combination (r ^ 2 * sin (a - b) ^ 2) * this
  rw [e]
  calc r ^ 2 * sin (a - b) ^ 2 ≤ r ^ 2 * (d / 2 / r) ^ 2 := by gcongr
    _ = (d / 2) ^ 2 := by field_simp

/-- Enough fuel for all angles of bounded size. -/
theorem wrap_bounded (n : Nat) (b : ℝ) (h : |b| ≤ π + n * (2 * π)) (fuel : Nat) (hf : n < fuel) : ∃ c, wrap fuel b = some c := by
  have hp := pi_pos
  obtain ⟨h1, h2⟩ := abs_le.1 h
  obtain ⟨c, e1, e2, e3, e4, -⟩ := wrapDown_spec n b h2
  have hc : -π - n * (2 * π) ≤ c := by
    by_cases hb : b ≤ π
    · rw [e3 hb]; linarith
    · have := e4 (not_le.1 hb)
      have : (0 : ℝ) ≤ n * (2 * π) := by positivity
      linarith
  obtain ⟨c', f1, -⟩ := wrapUp_spec n c hc e2
  exact ⟨c', by simp only [wrap, e1 fuel hf, Option.bind_some, f1 fuel hf]⟩

theorem mean_bounded (n : Nat) (x m : Fin 3 → ℝ) (h : |x 2| ≤ n) (fuel : Nat) (hf : n + 1 < fuel) :
    ∃ b, mean fuel x m = some ![√((m 0 - x 0) ^ 2 + (m 1 - x 1) ^ 2), b, m 2] ∧ -π ≤ b ∧ b ≤ π := by
  have hp := pi_pos
  have hp3 := pi_gt_three
  obtain ⟨c, hc⟩ := wrap_bounded (n + 1) (atan2 (m 1 - x 1) (m 0 - x 0) - (x 2 - π / 2)) (by
    have h1 : |atan2 (m 1 - x 1) (m 0 - x 0)| ≤ π := Complex.abs_arg_le_pi _
    have h2 : |atan2 (m 1 - x 1) (m 0 - x 0) - (x 2 - π / 2)| ≤ |atan2 (m 1 - x 1) (m 0 - x 0)| + |x 2| + π / 2 := by
      have e : atan2 (m 1 - x 1) (m 0 - x 0) - (x 2 - π / 2) = atan2 (m 1 - x 1) (m 0 - x 0) + (-x 2 + π / 2) := by ring
      rw [e]
      refine (abs_add_le _ _).trans ?_
      have := abs_add_le (-x 2) (π / 2)
      rw [abs_neg, abs_of_pos (by positivity : 0 < π / 2)] at this
      linarith
    have hn : (0 : ℝ) ≤ n := Nat.cast_nonneg n
    push_cast
    nlinarith) fuel hf
  obtain ⟨h1, h2, -⟩ := wrap_some hc
  exact ⟨c, by rw [mean, hc]; rfl, h2, h1⟩

/-- The loop over the probes ends if the diameter is positive. -/
theorem offsets_total {d std : ℝ} (hd : 0 < d) : ∃ N, ∀ fuel, N ≤ fuel → ∃ l, offsets d std fuel 1 = some l := by
  obtain ⟨n, hn⟩ := exists_nat_ge (std / (2 * d))
  rw [div_le_iff₀ (by positivity)] at hn
  have key : ∀ (j i fuel : Nat), n + 1 ≤ i + j → j < fuel → ∃ l, offsets d std fuel i = some l := by
    intro j
    induction j with
    | zero =>
      intro i fuel hi hf
      obtain ⟨f, rfl⟩ : ∃ f, fuel = f + 1 := ⟨fuel - 1, by omega⟩
      refine ⟨[], ?_⟩
      rw [offsets, if_neg]
      rw [not_lt]
      have : (n : ℝ) ≤ (i : ℝ) - 1 := by
        have : (n : ℝ) + 1 ≤ i := by exact_mod_cast hi
        linarith
      exact hn.trans (by gcongr)
    | succ j ih =>
      intro i fuel hi hf
      obtain ⟨f, rfl⟩ : ∃ f, fuel = f + 1 := ⟨fuel - 1, by omega⟩
      rw [offsets]
      split
      · obtain ⟨l, hl⟩ := ih (i + 1) f (by omega) (by omega)
        exact ⟨_, by rw [hl]; rfl⟩
      · exact ⟨[], rfl⟩
  exact ⟨n + 1, fun fuel hf => key n 1 fuel (by omega) (by omega)⟩

/-- It does not if it is not. -/
theorem offsets_never {d std : ℝ} (hd : d ≤ 0) (hs : 0 < std) : ∀ (fuel i : Nat), 1 ≤ i → offsets d std fuel i = none
  | 0, _, _ => rfl
  | fuel + 1, i, hi => by
    have h1 : (1 : ℝ) ≤ i := by exact_mod_cast hi
    rw [offsets, if_pos (by nlinarith), offsets_never hd hs fuel (i + 1) (by omega)]
    rfl

theorem spread_pos (a : ℝ) (S : Matrix (Fin 2) (Fin 2) ℝ) : 0 < spread a S := lt_of_lt_of_le (by norm_num) (le_max_right _ _)

theorem foldl_max_mem : ∀ (l : List ℝ) (a : ℝ), (l.foldl max a = a ∨ l.foldl max a ∈ l) ∧ a ≤ l.foldl max a ∧ ∀ x ∈ l, x ≤ l.foldl max a
  | [], a => by simp
  | b :: l, a => by
    obtain ⟨h1, h2, h3⟩ := foldl_max_mem l (max a b)
    simp only [List.foldl_cons, List.mem_cons, forall_eq_or_imp]
    refine ⟨?_, (le_max_left _ _).trans h2, (le_max_right _ _).trans h2, h3⟩
    rcases h1 with h1 | h1
    · rw [h1]
      rcases max_choice a b with e | e <;> simp [e]
    · exact Or.inr (Or.inr h1)

theorem foldl_min_mem : ∀ (l : List ℝ) (a : ℝ), (l.foldl min a = a ∨ l.foldl min a ∈ l) ∧ l.foldl min a ≤ a ∧ ∀ x ∈ l, l.foldl min a ≤ x
  | [], a => by simp
  | b :: l, a => by
    obtain ⟨h1, h2, h3⟩ := foldl_min_mem l (min a b)
    simp only [List.foldl_cons, List.mem_cons, forall_eq_or_imp]
    refine ⟨?_, h2.trans (min_le_left _ _), h2.trans (min_le_right _ _), h3⟩
    rcases h1 with h1 | h1
    · rw [h1]
      rcases min_choice a b with e | e <;> simp [e]
    · exact Or.inr (Or.inr h1)

theorem maxEl_spec {l : List ℝ} (h : l ≠ []) : maxEl l ∈ l ∧ ∀ x ∈ l, x ≤ maxEl l := by
  obtain ⟨a, l, rfl⟩ := List.exists_cons_of_ne_nil h
  obtain ⟨h1, h2, h3⟩ := foldl_max_mem l a
  simp only [maxEl, List.mem_cons, forall_eq_or_imp]
  exact ⟨h1, h2, h3⟩

theorem minEl_spec {l : List ℝ} (h : l ≠ []) : minEl l ∈ l ∧ ∀ x ∈ l, minEl l ≤ x := by
  obtain ⟨a, l, rfl⟩ := List.exists_cons_of_ne_nil h
  obtain ⟨h1, h2, h3⟩ := foldl_min_mem l a
  simp only [minEl, List.mem_cons, forall_eq_or_imp]
  exact ⟨h1, h2, h3⟩

end VPark
end RFS
