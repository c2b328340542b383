import Mathlib.Tactic.Ring
import Mathlib.Tactic.Linarith
import Mathlib.Tactic.FieldSimp
import Mathlib.Tactic.NormNum
import Mathlib.Tactic.Positivity
import Mathlib.Algebra.Order.Floor.Ring
import Mathlib.Data.Rat.Floor
import Mathlib.Data.Nat.Log
import Verif.Model.Dbl

/-!
Facts about rounding to nearest with 53 significant bits.
-/

namespace RFS
namespace Dbl

/-- The numbers with at most 53 significant bits. -/
def Rep (x : ℚ) : Prop := ∃ k e : ℤ, |k| ≤ 2 ^ 53 ∧ x = k * (2 : ℚ) ^ e

/-- `rd` rounds every number to a nearest number with 53 significant bits (ties broken in any way). -/
def Nearest (rd : ℚ → ℚ) : Prop := ∀ x, Rep (rd x) ∧ ∀ y, Rep y → |x - rd x| ≤ |x - y|

theorem pow2_eq (e : ℤ) : pow2 e = (2 : ℚ) ^ e := by
  unfold pow2
  split
  · rename_i h
    obtain ⟨n, rfl⟩ := Int.eq_ofNat_of_zero_le h
    simp
  · rename_i h
    obtain ⟨n, hn⟩ := Int.eq_ofNat_of_zero_le (show 0 ≤ -e by omega)
    have : e = -(n : ℤ) := by omega
    subst this
    simp

theorem ilog_spec {x : ℚ} (hx : 0 < x) : (2 : ℚ) ^ ilog x ≤ x ∧ x < (2 : ℚ) ^ (ilog x + 1) := by
  have hnum : 0 < x.num := Rat.num_pos.mpr hx
  have hn0 : x.num.natAbs ≠ 0 := by omega
  have hd0 : x.den ≠ 0 := x.den_nz
  have hxe : x = (x.num.natAbs : ℚ) / (x.den : ℚ) := by
    conv_lhs => rw [← Rat.num_div_den x]
    congr 1
    have : ((x.num.natAbs : ℤ) : ℚ) = (x.num : ℚ) := by
      congr 1; omega
    rw [← this]; simp
  obtain ⟨a, ha⟩ : ∃ a, a = Nat.log2 x.num.natAbs := ⟨_, rfl⟩
  obtain ⟨b, hb⟩ : ∃ b, b = Nat.log2 x.den := ⟨_, rfl⟩
  have ha1 : 2 ^ a ≤ x.num.natAbs := by rw [ha]; exact Nat.log2_self_le hn0
  have ha2 : x.num.natAbs < 2 ^ (a + 1) := by rw [ha]; exact Nat.lt_log2_self
  have hb1 : 2 ^ b ≤ x.den := by rw [hb]; exact Nat.log2_self_le hd0
  have hb2 : x.den < 2 ^ (b + 1) := by rw [hb]; exact Nat.lt_log2_self
  have ha1' : (2 : ℚ) ^ a ≤ x.num.natAbs := by exact_mod_cast ha1
  have ha2' : (x.num.natAbs : ℚ) < 2 ^ (a + 1) := by exact_mod_cast ha2
  have hb1' : (2 : ℚ) ^ b ≤ x.den := by exact_mod_cast hb1
  have hb2' : (x.den : ℚ) < 2 ^ (b + 1) := by exact_mod_cast hb2
  have hdp : (0 : ℚ) < x.den := by exact_mod_cast Nat.pos_of_ne_zero hd0
  have hpb : (0 : ℚ) < 2 ^ b := by positivity
  have hup : x < (2 : ℚ) ^ ((a : ℤ) - b + 1) := by
    have h1 : (2 : ℚ) ^ ((a : ℤ) - b + 1) = 2 ^ (a + 1) / 2 ^ b := by
      rw [show (a : ℤ) - b + 1 = ((a + 1 : ℕ) : ℤ) - (b : ℤ) by push_cast; ring, zpow_sub₀ (by norm_num), zpow_natCast, zpow_natCast]
    rw [h1, hxe, div_lt_div_iff₀ hdp hpb]
    nlinarith
  have hlo : (2 : ℚ) ^ ((a : ℤ) - b - 1) ≤ x := by
    have h1 : (2 : ℚ) ^ ((a : ℤ) - b - 1) = 2 ^ a / 2 ^ (b + 1) := by
      rw [show (a : ℤ) - b - 1 = (a : ℤ) - ((b + 1 : ℕ) : ℤ) by push_cast; ring, zpow_sub₀ (by norm_num), zpow_natCast, zpow_natCast]
    rw [h1, hxe, div_le_div_iff₀ (by positivity) hdp]
    have : (0 : ℚ) < 2 ^ a := by positivity
    nlinarith
  have hil : ilog x = if (2 : ℚ) ^ ((a : ℤ) - b) ≤ x then (a : ℤ) - b else (a : ℤ) - b - 1 := by
    simp only [ilog, pow2_eq, ← ha, ← hb]
  rw [hil]
  split
  · rename_i h
    exact ⟨h, hup⟩
  · rename_i h
    refine ⟨hlo, ?_⟩
    rw [show (a : ℤ) - b - 1 + 1 = (a : ℤ) - b by ring]
    exact lt_of_not_ge h

theorem nearInt_half (q : ℚ) : |q - (nearInt q : ℚ)| ≤ 1 / 2 := by
  have h1 : ((Rat.floor q : ℤ) : ℚ) ≤ q := by
    exact Int.floor_le q
  have h2 : q < ((Rat.floor q : ℤ) : ℚ) + 1 := by
    exact Int.lt_floor_add_one q
  simp only [nearInt]
  split
  · rw [abs_le]; constructor <;> linarith
  · split
    · push_cast; rw [abs_le]; constructor <;> linarith
    · split
      · rw [abs_le]; constructor <;> linarith
      · push_cast; rw [abs_le]; constructor <;> linarith

theorem nearInt_le (q : ℚ) (k : ℤ) : |q - (nearInt q : ℚ)| ≤ |q - (k : ℚ)| := by
  by_cases h : k = nearInt q
  · rw [h]
  · have h1 := nearInt_half q
    have h2 : (1 : ℚ) ≤ |(k : ℚ) - (nearInt q : ℚ)| := by
      have : (1 : ℤ) ≤ |k - nearInt q| := Int.one_le_abs (sub_ne_zero.mpr h)
      exact_mod_cast this
    have h3 : |(k : ℚ) - (nearInt q : ℚ)| ≤ |q - (k : ℚ)| + |q - (nearInt q : ℚ)| := by
      have : (k : ℚ) - (nearInt q : ℚ) = -(q - k) + (q - nearInt q) := by ring
      rw [this]
      calc |-(q - (k : ℚ)) + (q - nearInt q)| ≤ |-(q - (k : ℚ))| + |q - nearInt q| := abs_add_le _ _
        _ = _ := by rw [abs_neg]
    linarith

/-- The unit in the last place that `rnd` uses. -/
theorem rnd_eq {x : ℚ} (hx : x ≠ 0) :
    rnd x = nearInt (x / (2 : ℚ) ^ (ilog |x| - 52)) * (2 : ℚ) ^ (ilog |x| - 52) := by
  simp only [rnd, if_neg hx, pow2_eq]

theorem zpow_split (e : ℤ) : (2 : ℚ) ^ e = 2 ^ 52 * (2 : ℚ) ^ (e - 52) := by
  rw [show e = (e - 52) + 52 by ring, zpow_add₀ (by norm_num), show (e - 52) + 52 - 52 = e - 52 by ring]
  rw [mul_comm]; congr 1

theorem rnd_mult {x : ℚ} (hx : x ≠ 0) (k : ℤ) : |x - rnd x| ≤ |x - k * (2 : ℚ) ^ (ilog |x| - 52)| := by
  rw [rnd_eq hx]
  obtain ⟨u, hu⟩ : ∃ u, u = (2 : ℚ) ^ (ilog |x| - 52) := ⟨_, rfl⟩
  rw [← hu]
  have hup : 0 < u := by rw [hu]; exact zpow_pos (by norm_num) _
  have h := nearInt_le (x / u) k
  have e1 : ∀ m : ℚ, x - m * u = (x / u - m) * u := by intro m; field_simp
  rw [e1, e1, abs_mul, abs_mul]
  exact mul_le_mul_of_nonneg_right h (abs_nonneg _)

theorem rnd_rel_err (x : ℚ) : |x - rnd x| ≤ |x| / 2 ^ 53 := by
  by_cases hx : x = 0
  · subst hx; simp [rnd]
  rw [rnd_eq hx]
  have hs := ilog_spec (abs_pos.mpr hx)
  have hz := zpow_split (ilog |x|)
  obtain ⟨u, hu⟩ : ∃ u, u = (2 : ℚ) ^ (ilog |x| - 52) := ⟨_, rfl⟩
  rw [← hu] at hz ⊢
  have hup : 0 < u := by rw [hu]; exact zpow_pos (by norm_num) _
  have h := nearInt_half (x / u)
  have e1 : ∀ m : ℚ, x - m * u = (x / u - m) * u := by intro m; field_simp
  rw [e1, abs_mul, abs_of_pos hup]
  have h2 : |x / u - (nearInt (x / u) : ℚ)| * u ≤ 1 / 2 * u := mul_le_mul_of_nonneg_right h hup.le
  have h3 : 2 ^ 52 * u ≤ |x| := by rw [← hz]; exact hs.1
  linarith

theorem rep_rnd (x : ℚ) : Rep (rnd x) := by
  by_cases hx : x = 0
  · subst hx
    exact ⟨0, 0, by simp, by simp [rnd]⟩
  refine ⟨nearInt (x / (2 : ℚ) ^ (ilog |x| - 52)), ilog |x| - 52, ?_, rnd_eq hx⟩
  have hs := ilog_spec (abs_pos.mpr hx)
  have hz := zpow_split (ilog |x|)
  have hz' : (2 : ℚ) ^ (ilog |x| + 1) = 2 * (2 : ℚ) ^ ilog |x| := by
    rw [zpow_add₀ (by norm_num)]; ring
  obtain ⟨u, hu⟩ : ∃ u, u = (2 : ℚ) ^ (ilog |x| - 52) := ⟨_, rfl⟩
  rw [← hu] at hz ⊢
  have hup : 0 < u := by rw [hu]; exact zpow_pos (by norm_num) _
  have h := nearInt_half (x / u)
  have hq : |x / u| < 2 ^ 53 := by
    rw [abs_div, abs_of_pos hup, div_lt_iff₀ hup]
    have := hs.2
    rw [hz', hz] at this
    linarith
  obtain ⟨m, hm⟩ : ∃ m, m = nearInt (x / u) := ⟨_, rfl⟩
  rw [← hm] at h ⊢
  have hlt : (|m| : ℚ) < 2 ^ 53 + 1 := by
    rw [abs_lt] at hq ⊢
    rw [abs_le] at h
    constructor <;> linarith [hq.1, hq.2, h.1, h.2]
  have : |m| < 2 ^ 53 + 1 := by exact_mod_cast hlt
  omega

/-- `rnd` rounds to nearest. -/
theorem nearest_rnd : Nearest rnd := by
  intro x
  refine ⟨rep_rnd x, ?_⟩
  intro y hy
  by_cases hx : x = 0
  · subst hx; simp [rnd]
  obtain ⟨k, f, hk, rfl⟩ := hy
  obtain ⟨e, he⟩ : ∃ e, e = ilog |x| := ⟨_, rfl⟩
  have hs := ilog_spec (abs_pos.mpr hx)
  by_cases hf : e - 52 ≤ f
  · obtain ⟨n, hn⟩ := Int.eq_ofNat_of_zero_le (show 0 ≤ f - (e - 52) by omega)
    have hfe : f = (n : ℤ) + (e - 52) := by omega
    have := rnd_mult hx (k * 2 ^ n)
    rw [← he] at this
    rw [hfe, zpow_add₀ (by norm_num), zpow_natCast]
    push_cast at this
    rwa [← mul_assoc]
  · have hy : |(k : ℚ) * (2 : ℚ) ^ f| ≤ (2 : ℚ) ^ e := by
      rw [abs_mul, abs_of_pos (zpow_pos (show (0 : ℚ) < 2 by norm_num) f)]
      have hk' : (|k| : ℚ) ≤ 2 ^ 53 := by exact_mod_cast hk
      have hf' : (2 : ℚ) ^ f ≤ (2 : ℚ) ^ (e - 53) := zpow_le_zpow_right₀ (by norm_num) (by omega)
      have he' : (2 : ℚ) ^ e = 2 ^ 53 * (2 : ℚ) ^ (e - 53) := by
        rw [← zpow_natCast, ← zpow_add₀ (by norm_num)]; congr 1; push_cast; ring
      rw [he']
      exact mul_le_mul hk' hf' (zpow_pos (by norm_num) f).le (by norm_num)
    have hz := zpow_split e
    rw [← he] at hs
    have htri : |x| - |(k : ℚ) * (2 : ℚ) ^ f| ≤ |x - k * (2 : ℚ) ^ f| := abs_sub_abs_le_abs_sub _ _
    rcases lt_or_gt_of_ne hx with hneg | hpos
    · have := rnd_mult hx (-(2 ^ 52))
      rw [← he] at this
      rw [show ((-(2 ^ 52) : ℤ) : ℚ) * (2 : ℚ) ^ (e - 52) = -(2 : ℚ) ^ e by rw [hz]; push_cast; ring] at this
      rw [abs_of_neg hneg] at hs htri
      have h1 : |x - -(2 : ℚ) ^ e| = -x - (2 : ℚ) ^ e := by
        rw [abs_of_nonpos] <;> linarith [hs.1]
      rw [h1] at this
      linarith
    · have := rnd_mult hx (2 ^ 52)
      rw [← he] at this
      rw [show (((2 ^ 52) : ℤ) : ℚ) * (2 : ℚ) ^ (e - 52) = (2 : ℚ) ^ e by rw [hz]; push_cast; ring] at this
      rw [abs_of_pos hpos] at hs htri
      have h1 : |x - (2 : ℚ) ^ e| = x - (2 : ℚ) ^ e := by
        rw [abs_of_nonneg]; linarith [hs.1]
      rw [h1] at this
      linarith

/-! ### Consequences for every rounding to nearest -/

theorem Nearest.rel {rd : ℚ → ℚ} (h : Nearest rd) (x : ℚ) : |x - rd x| ≤ |x| / 2 ^ 53 :=
  le_trans ((h x).2 _ (rep_rnd x)) (rnd_rel_err x)

theorem Nearest.fix {rd : ℚ → ℚ} (h : Nearest rd) {x : ℚ} (hx : Rep x) : rd x = x := by
  have := (h x).2 x hx
  rw [sub_self, abs_zero] at this
  have h0 := abs_eq_zero.mp (le_antisymm this (abs_nonneg _))
  linarith

theorem Nearest.idem {rd : ℚ → ℚ} (h : Nearest rd) (x : ℚ) : rd (rd x) = rd x := h.fix (h x).1

theorem Nearest.mono {rd : ℚ → ℚ} (h : Nearest rd) : Monotone rd := by
  intro x y hxy
  rcases hxy.eq_or_lt with rfl | hlt
  · exact le_refl _
  by_contra hc
  push Not at hc
  have h1 := (h x).2 _ (h y).1
  have h2 := (h y).2 _ (h x).1
  have a1 := abs_sub_le_iff.mp (le_refl |x - rd x|)
  have a2 := abs_sub_le_iff.mp (le_refl |y - rd y|)
  rcases le_total (rd y) x with hyx | hyx
  · rw [abs_of_nonneg (sub_nonneg.mpr hyx)] at h1
    rcases le_total y (rd x) with hxy' | hxy'
    · rw [abs_of_nonpos (sub_nonpos.mpr hxy')] at h2
      linarith [a1.1, a1.2, a2.1, a2.2]
    · rw [abs_of_nonneg (sub_nonneg.mpr hxy')] at h2
      linarith [a1.1, a1.2, a2.1, a2.2]
  · rw [abs_of_nonpos (sub_nonpos.mpr hyx)] at h1
    linarith [a1.1, a1.2, a2.1, a2.2]

theorem rep_int {k : ℤ} (hk : |k| ≤ 2 ^ 53) : Rep (k : ℚ) := ⟨k, 0, hk, by simp⟩

theorem Nearest.nat {rd : ℚ → ℚ} (h : Nearest rd) {k : ℕ} (hk : k ≤ 2 ^ 53) : rd (k : ℚ) = k := by
  apply h.fix
  have := rep_int (k := (k : ℤ)) (by rw [abs_of_nonneg (by omega)]; exact_mod_cast hk)
  simpa using this

theorem Nearest.zero {rd : ℚ → ℚ} (h : Nearest rd) : rd 0 = 0 := by
  have := h.nat (k := 0) (by norm_num)
  simpa using this

theorem Nearest.one {rd : ℚ → ℚ} (h : Nearest rd) : rd 1 = 1 := by
  have := h.nat (k := 1) (by norm_num)
  simpa using this

theorem Nearest.nonneg {rd : ℚ → ℚ} (h : Nearest rd) {x : ℚ} (hx : 0 ≤ x) : 0 ≤ rd x := by
  have := h.mono hx
  rwa [h.zero] at this

theorem Nearest.le_of_nonneg {rd : ℚ → ℚ} (h : Nearest rd) {x : ℚ} (hx : 0 ≤ x) : rd x ≤ x * (1 + 1 / 2 ^ 53) := by
  have := h.rel x
  rw [abs_of_nonneg hx, abs_le] at this
  linarith [this.1]

theorem Nearest.ge_of_nonneg {rd : ℚ → ℚ} (h : Nearest rd) {x : ℚ} (hx : 0 ≤ x) : x * (1 - 1 / 2 ^ 53) ≤ rd x := by
  have := h.rel x
  rw [abs_of_nonneg hx, abs_le] at this
  linarith [this.2]

end Dbl
end RFS
