import Verif.Lemmas.HungDblGrid
import Verif.Lemmas.DblSample

/-!
The Hungarian method in doubles on the matrices of the later calls of Murty's algorithm: one row holds the number that
forbids an entry, -10000, and all other entries are between -1001 and 2000. After the offset has been subtracted all entries
are zero or between 8192 and 16384, so they are multiples of `2^-39` and no later operation rounds.
-/

set_option linter.unusedSectionVars false

namespace RFS
namespace HungDbl
open Dbl Hungarian

variable {n : Nat}

theorem ok_of {rd : ℚ → ℚ} (hrd : Nearest rd) {q : ℤ} (hq : -39 ≤ q) :
    Ok rd ((2 : ℚ) ^ q) (2 ^ 53 * (2 : ℚ) ^ q) := by
  have hg : (0 : ℚ) < (2 : ℚ) ^ q := zpow_pos (by norm_num) _
  have h39 : (2 : ℚ) ^ (-39 : ℤ) ≤ (2 : ℚ) ^ q := zpow_le_zpow_right₀ (by norm_num) hq
  have hE : (tolE : ℚ) ≤ (2 : ℚ) ^ (-39 : ℤ) := by unfold tolE; norm_num
  have hfixg : rd ((2 : ℚ) ^ q) = (2 : ℚ) ^ q := hrd.fix ⟨1, q, by norm_num, by simp⟩
  have hEg : (tolE : ℚ) ≤ (2 : ℚ) ^ q := le_trans hE h39
  refine ⟨?_, rd_pos hrd tolS_pos, ?_, rd_pos hrd tolE_pos, ?_, hEg⟩
  · rintro z ⟨k, rfl⟩ hb
    apply hrd.fix
    refine ⟨k, q, ?_, rfl⟩
    rw [abs_mul, abs_of_pos hg] at hb
    have := le_of_mul_le_mul_right hb hg
    exact_mod_cast this
  · rw [← hfixg]; exact hrd.mono (le_trans tolS_le_tolE hEg)
  · rw [← hfixg]; exact hrd.mono hEg

/-- Doubles from `2^13` on are multiples of `2^-39`. -/
theorem mul_of_rep {z : ℚ} (hz : Rep z) (h : 2 ^ 13 ≤ |z|) : Mul ((2 : ℚ) ^ (-39 : ℤ)) z := by
  obtain ⟨k, e, hk, rfl⟩ := hz
  have he : (0 : ℚ) < (2 : ℚ) ^ e := zpow_pos (by norm_num) _
  have hge : -40 ≤ e := by
    by_contra hc
    have h1 : (2 : ℚ) ^ e ≤ (2 : ℚ) ^ (-41 : ℤ) := zpow_le_zpow_right₀ (by norm_num) (by omega)
    rw [abs_mul, abs_of_pos he] at h
    have h2 : |(k : ℚ)| ≤ 2 ^ 53 := by exact_mod_cast hk
    have h3 : |(k : ℚ)| * (2 : ℚ) ^ e ≤ 2 ^ 53 * (2 : ℚ) ^ (-41 : ℤ) := mul_le_mul h2 h1 he.le (by norm_num)
    have h4 : (2 : ℚ) ^ 53 * (2 : ℚ) ^ (-41 : ℤ) = 2 ^ 12 := by norm_num
    rw [h4] at h3
    have : (2 : ℚ) ^ 13 ≤ 2 ^ 12 := le_trans h h3
    norm_num at this
  by_cases h40 : e = -40
  · subst h40
    rw [abs_mul, abs_of_pos he] at h
    have h1 : (2 : ℚ) ^ 53 ≤ |(k : ℚ)| := by
      have : (2 : ℚ) ^ 13 = 2 ^ 53 * (2 : ℚ) ^ (-40 : ℤ) := by norm_num
      rw [this] at h
      exact le_of_mul_le_mul_right h he
    have h2 : (2 : ℤ) ^ 53 ≤ |k| := by exact_mod_cast h1
    have h3 : |k| = 2 ^ 53 := le_antisymm hk h2
    rcases abs_choice k with h4 | h4
    · rw [h4] at h3; exact ⟨2 ^ 52, by rw [h3]; norm_num⟩
    · rw [h4] at h3; exact ⟨-2 ^ 52, by rw [show k = -2 ^ 53 by omega]; norm_num⟩
  · refine ⟨k * 2 ^ (e + 39).toNat, ?_⟩
    have : (2 : ℚ) ^ e = 2 ^ (e + 39).toNat * (2 : ℚ) ^ (-39 : ℤ) := by
      rw [← zpow_natCast, ← zpow_add₀ (by norm_num)]
      congr 1
      omega
    rw [this]; push_cast; ring

theorem offsetOf_zero {W : Mat ℚ n} (h : ∀ x y, 0 ≤ W x y) : offsetOf W = 0 := by
  rcases offsetOf_mem W with e | ⟨x, y, e⟩
  · exact e
  · exact le_antisymm (offsetOf_nonpos W) (by rw [e]; exact h x y)

/-- One row with forbidden entries: the function finds an assignment that is best up to `n * 5e-12`. -/
theorem solve_row {rd : ℚ → ℚ} (hrd : Nearest rd) (C : Mat ℚ n) (r : Fin n)
    (hC : ∀ x y, (x = r ∧ C x y = -10000) ∨ (-1001 ≤ C x y ∧ C x y ≤ 2000)) (hex : ∃ y, C r y = -10000) (fuel : Nat)
    (hf : n * (n + 1) < fuel) : ∃ (soln : Fin n → Fin n) (cost : ℚ) (C' : Mat ℚ n), Function.Bijective soln ∧
      run rd C true fuel = .solved soln cost C' ∧
      ∀ σ : Fin n → Fin n, Function.Bijective σ → ∑ x, C x (σ x) ≤ ∑ x, C x (soln x) + n * (5 / 10 ^ 12) := by
  have hoff : offsetOf C = -10000 := by
    obtain ⟨y, hy⟩ := hex
    have h1 := offsetOf_le C r y
    rw [hy] at h1
    rcases offsetOf_mem C with e | ⟨x, z, e⟩
    · rw [e] at h1; norm_num at h1
    · refine le_antisymm h1 ?_
      rw [e]
      rcases hC x z with ⟨-, h⟩ | ⟨h, -⟩
      · rw [h]
      · linarith
  set W : Mat ℚ n := fun x y => rd (C x y - -10000) with hWdef
  have hint : ∀ k : ℤ, |k| ≤ 2 ^ 53 → rd (k : ℚ) = k := fun k hk => hrd.fix ⟨k, 0, hk, by simp⟩
  have hcase : ∀ x y, (x = r ∧ C x y = -10000 ∧ W x y = 0) ∨ (8999 ≤ W x y ∧ W x y ≤ 12000 ∧ -1001 ≤ C x y ∧ C x y ≤ 2000) := by
    intro x y
    rcases hC x y with ⟨h1, h2⟩ | ⟨h1, h2⟩
    · left
      refine ⟨h1, h2, ?_⟩
      simp only [hWdef, h2]; rw [sub_self]; exact hrd.zero
    · right
      have a1 : rd (8999 : ℚ) ≤ W x y := hrd.mono (by linarith)
      have a2 : W x y ≤ rd (12000 : ℚ) := hrd.mono (by linarith)
      have b1 := hint 8999 (by norm_num)
      have b2 := hint 12000 (by norm_num)
      push_cast at b1 b2
      rw [b1] at a1; rw [b2] at a2
      exact ⟨a1, a2, h1, h2⟩
  have hW : WOk ((2 : ℚ) ^ (-39 : ℤ)) 12000 W := by
    refine ⟨fun x y => ?_, fun x y => ?_, fun x y => ?_⟩
    · rcases hcase x y with ⟨-, -, h⟩ | ⟨h, -⟩
      · rw [h]; exact Mul.zero
      · exact mul_of_rep (hrd _).1 (by rw [abs_of_nonneg (by linarith)]; norm_num; linarith)
    · rcases hcase x y with ⟨-, -, h⟩ | ⟨h, -⟩ <;> linarith
    · rcases hcase x y with ⟨-, -, h⟩ | ⟨-, h, -⟩ <;> linarith
  have hok := ok_of hrd (q := -39) (le_refl _)
  have hok' : Ok rd ((2 : ℚ) ^ (-39 : ℤ)) (12000 + (12000 - 8999)) :=
    ⟨fun z hz hb => hok.fix z hz (le_trans hb (by norm_num)), hok.sPos, hok.sLe, hok.ePos, hok.eLe, hok.tol⟩
  have hcap : Cap W ((2 : ℚ) ^ (-39 : ℤ)) 12000 (12000 - 8999) := by
    apply cap_row hW hok.tol r
    intro x y hx
    rcases hcase x y with ⟨h, -⟩ | ⟨h, -⟩
    · exact absurd h hx
    · exact h
  have hpre : Hungarian.preprocess W true = (W, 0) := by
    unfold Hungarian.preprocess
    simp only [if_true, offsetOf_zero hW.nonneg, sub_zero]
  obtain ⟨c0, e0, hc0⟩ := init_spec hW.nonneg
  obtain ⟨soln, e1, hb, hbest, -⟩ := run_spec W true fuel hf
  unfold Hungarian.run at e1
  rw [hpre] at e1
  simp only [e0] at e1
  have hsim := loop_sim hok' hW hcap (o := -10000) (o' := 0) (m := true) (m' := true) fuel c0 none
    (init_gc hW (fun _ => by norm_num) e0) hc0 (by simp)
  rw [e1] at hsim
  have hrun : run rd C true fuel = loop rd W (-10000) true fuel c0 none := by
    unfold run preprocess
    simp only [if_true, hoff]
    have : init (fun x y => rd (C x y - -10000)) = some c0 := e0
    rw [this]
  refine ⟨soln, _, _, hb, hrun.trans hsim, ?_⟩
  · intro σ hσ
    have h1 := hbest σ hσ
    simp only [if_true] at h1
    have herr : ∀ x y, |W x y - (C x y + 10000)| ≤ 12000 / 2 ^ 53 := by
      intro x y
      have := hrd.rel (C x y - -10000)
      rw [abs_sub_comm] at this
      have e : C x y - -10000 = C x y + 10000 := by ring
      simp only [hWdef]
      rw [e] at this ⊢
      refine le_trans this (div_le_div_of_nonneg_right ?_ (by norm_num))
      rcases hC x y with ⟨-, h⟩ | ⟨h, h'⟩
      · rw [h]; norm_num
      · rw [abs_of_nonneg (by linarith)]; linarith
    have hs1 : ∑ x, (C x (σ x) + 10000) ≤ ∑ x, (W x (σ x) + 12000 / 2 ^ 53) :=
      Finset.sum_le_sum fun x _ => by have := (abs_le.1 (herr x (σ x))).1; linarith
    have hs2 : ∑ x, (W x (soln x) - 12000 / 2 ^ 53) ≤ ∑ x, (C x (soln x) + 10000) :=
      Finset.sum_le_sum fun x _ => by have := (abs_le.1 (herr x (soln x))).2; linarith
    simp only [Finset.sum_add_distrib, Finset.sum_sub_distrib, Finset.sum_const, Finset.card_univ, Fintype.card_fin,
      nsmul_eq_mul] at hs1 hs2
    have hn0 : (0 : ℚ) ≤ n := Nat.cast_nonneg n
    have : (n : ℚ) * tolE + 2 * (n * (12000 / 2 ^ 53)) ≤ n * (5 / 10 ^ 12) := by
      have : (tolE : ℚ) + 2 * (12000 / 2 ^ 53) ≤ 5 / 10 ^ 12 := by unfold tolE; norm_num
      nlinarith
    linarith

end HungDbl
end RFS
