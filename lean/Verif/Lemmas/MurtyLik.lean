import Verif.Model.MurtyLik
import Verif.Lemmas.MurtyBlock
import Mathlib.Algebra.BigOperators.Fin
import Mathlib.Data.Fintype.Pi
import Mathlib.Data.Fintype.Option

/-!
Helper lemmas on the extended matrices of the filters.
-/

set_option linter.unusedSectionVars false

namespace RFS
namespace MurtyLik
open Hungarian (Mat tolE)
open Murty

section
variable {K : Type*} [Field K] [LinearOrder K] [IsStrictOrderedRing K] {nR nC : Nat}

open Classical in
/-- Logarithm of the weight of an association. -/
noncomputable def val (Lg : Fin nR → Fin nC → K) (miss : Fin nR → K) (clut : Fin nC → K) (A : Fin nR → Option (Fin nC)) : K :=
  (∑ r, match A r with | some c => Lg r c | none => miss r) + ∑ c, if ∃ r, A r = some c then 0 else clut c

theorem make_block (C : Mat K (nR + nC)) (big : K) (fuel : Nat) : Prm.make C big (some (nR, nC)) fuel = ⟨C, big, nR, nC, fuel⟩ := by
  unfold Prm.make
  simp

theorem total_val (Lg : Fin nR → Fin nC → K) (miss : Fin nR → K) (clut : Fin nC → K) (bot big : K) (fuel : Nat) {σ : Fin (nR + nC) → Fin (nR + nC)}
    (hσ : Function.Bijective σ) (hg : GoodAll (⟨extMatrix Lg miss clut bot, big, nR, nC, fuel⟩ : Prm K (nR + nC)) σ) :
    total (extMatrix Lg miss clut bot) σ = val Lg miss clut (assoc nR nC rfl σ) := by
  classical
  unfold total val
  rw [Fin.sum_univ_add]
  congr 1
  · refine Finset.sum_congr rfl fun r _ => ?_
    have h1 := hg (Fin.castAdd nC r)
    unfold Good at h1
    rw [if_pos (by exact r.2)] at h1
    simp only [Fin.val_castAdd] at h1
    unfold extMatrix assoc
    rw [dif_pos (by exact r.2)]
    have e : (⟨r.val, by omega⟩ : Fin (nR + nC)) = Fin.castAdd nC r := rfl
    simp only [e]
    by_cases hc : (σ (Fin.castAdd nC r)).val < nC
    · rw [dif_pos hc, dif_pos hc]; rfl
    · rw [dif_neg hc, dif_neg hc, if_pos (by simp only [Fin.val_castAdd]; omega)]; rfl
  · refine Finset.sum_congr rfl fun c _ => ?_
    have h1 := hg (Fin.natAdd nR c)
    unfold Good at h1
    rw [if_neg (by simp)] at h1
    simp only [Fin.val_natAdd] at h1
    unfold extMatrix
    rw [dif_neg (by simp)]
    have hiff : (∃ r, assoc nR nC rfl σ r = some c) ↔ nC ≤ (σ (Fin.natAdd nR c)).val := by
      constructor
      · rintro ⟨r, hr⟩
        unfold assoc at hr
        split at hr
        · rename_i hlt
          have h2 := congrArg Fin.val (Option.some.inj hr)
          simp only at h2
          by_contra hn
          have h3 : (σ (Fin.natAdd nR c)).val = c.val := by omega
          have h4 := congrArg Fin.val (hσ.1 (Fin.ext (h2.trans h3.symm)))
          simp only [Fin.val_natAdd] at h4
          have := r.2; omega
        · cases hr
      · intro hle
        obtain ⟨i, hi⟩ := hσ.2 ⟨c.val, by omega⟩
        have hiv := congrArg Fin.val hi
        simp only at hiv
        have h2 := hg i
        unfold Good at h2
        by_cases hiR : i.val < nR
        · refine ⟨⟨i.val, hiR⟩, ?_⟩
          unfold assoc
          have e : (⟨i.val, by omega⟩ : Fin (nR + nC)) = i := rfl
          rw [dif_pos (by simp only; rw [hiv]; exact c.2)]
          congr 1
          exact Fin.ext hiv
        · rw [if_neg hiR] at h2
          exfalso
          have hc := c.2
          have h3 : i = Fin.natAdd nR c := Fin.ext (by simp only [Fin.val_natAdd]; simp only at h2; omega)
          rw [h3] at hiv
          omega
    by_cases hc : (σ (Fin.natAdd nR c)).val < nC
    · have h2 : (σ (Fin.natAdd nR c)).val = c.val := by omega
      rw [dif_pos hc, if_neg (show ¬ (∃ r, assoc nR nC rfl σ r = some c) from fun h => absurd (hiff.1 h) (by omega)),
        if_pos (by simp only [Fin.val_natAdd]; omega)]
      congr 1
      exact Fin.ext h2
    · rw [dif_neg hc, if_pos (hiff.2 (by omega))]

/-- The matrices built by the filters. -/
theorem ext_make (Lg : Fin nR → Fin nC → K) (miss : Fin nR → K) (clut : Fin nC → K) (bot big lo hi : K) (fuel : Nat) (hR : 0 < nR) (hC : 0 < nC)
    (hL : ∀ r c, bot ≤ Lg r c ∧ Lg r c ≤ hi) (hm : ∀ r, lo ≤ miss r ∧ miss r ≤ hi) (hc : ∀ c, lo ≤ clut c ∧ clut c ≤ hi) (hbl : bot ≤ lo) (hl0 : lo ≤ 0) (h0h : 0 ≤ hi)
    (hbig : (nR + nC : ℕ) * (hi - lo) + (nR + nC : ℕ) * tolE < big + 2 * bot) :
    Ext (⟨extMatrix Lg miss clut bot, big, nR, nC, fuel⟩ : Prm K (nR + nC)) bot lo hi where
  n_eq := rfl
  nC_pos := hC
  nR_pos := hR
  le i j := by
    simp only [extMatrix]
    split
    · split
      · exact (hL _ _).2
      · split
        · exact (hm _).2
        · linarith
    · split
      · split
        · exact (hc _).2
        · linarith
      · exact h0h
  ge i j := by
    simp only [extMatrix]
    split
    · split
      · exact (hL _ _).1
      · split
        · exact hbl.trans (hm _).1
        · exact le_rfl
    · split
      · split
        · exact hbl.trans (hc _).1
        · exact le_rfl
      · linarith
  bad i j h := by
    unfold Good at h
    simp only [extMatrix] at h ⊢
    by_cases hi : i.val < nR
    · rw [if_pos hi, not_or] at h
      rw [dif_pos hi, dif_neg h.1, if_neg (by omega)]
    · rw [if_neg hi, not_or] at h
      rw [dif_neg hi, dif_pos (by omega), if_neg (by omega)]
  diag i j hi hj := by
    simp only [extMatrix] at hi hj ⊢
    rw [dif_pos hi, dif_neg (by omega), if_pos (by omega)]
    exact (hm _).1
  low i j hi h := by
    unfold Good at h
    simp only [extMatrix] at hi h ⊢
    rw [if_neg (by omega)] at h
    rw [dif_neg (by omega)]
    split
    · rw [if_pos (by omega)]
      exact (hc _).1
    · exact hl0
  lo_le := hl0
  hi_ge := h0h
  bot_le := hbl.trans hl0
  big := hbig

end

/-- The loop over the calls, with what they return given. -/
theorem sumLoop_val {n : Nat} (Q : PQ ℝ n) (prm : Prm ℝ n) (bot H' : ℝ) : ∀ (k : Nat) (st : St ℝ n Q) (acc : ℝ) (L : List ℝ),
    (∀ x ∈ L, bot ≤ x) →
    (∀ i, match L[i]? with
      | some x => ∃ r a, call Q prm st i = .found r a x
      | none => call Q prm st i = .noMore ∨ ∃ r a s, call Q prm st i = .found r a s ∧ s ≤ H') →
    ∃ e, 0 ≤ e ∧ e ≤ k * Real.exp H' ∧ sumLoop Q prm bot k st acc = some (acc + ((L.take k).map Real.exp).sum + e)
  | 0, st, acc, L, _, _ => ⟨0, le_rfl, by simp, by simp [sumLoop]⟩
  | k + 1, st, acc, [], hb, hcall => by
    have hpos := Real.exp_pos H'
    have h0 := hcall 0
    simp only [List.getElem?_nil] at h0
    unfold call at h0
    unfold sumLoop
    cases hf : findNextBest Q prm st with
    | mk r st' =>
      rw [hf] at h0
      rcases h0 with h0 | ⟨r', a, s, h0, hs⟩
      · simp only at h0
        subst h0
        exact ⟨0, le_rfl, by positivity, by simp⟩
      · simp only at h0
        subst h0
        simp only
        split
        · exact ⟨0, le_rfl, by positivity, by simp⟩
        · obtain ⟨e, he0, he, heq⟩ := sumLoop_val Q prm bot H' k st' (acc + Real.exp s) [] (by simp) (fun i => by
            have h1 := hcall (i + 1)
            simp only [List.getElem?_nil] at h1 ⊢
            rw [call, hf] at h1
            exact h1)
          refine ⟨Real.exp s + e, by have := Real.exp_pos s; linarith, ?_, ?_⟩
          · have := Real.exp_le_exp.2 hs
            push_cast
            linarith
          · rw [heq]; simp; ring
  | k + 1, st, acc, x :: L, hb, hcall => by
    have h0 := hcall 0
    simp only [List.getElem?_cons_zero] at h0
    unfold call at h0
    unfold sumLoop
    cases hf : findNextBest Q prm st with
    | mk r st' =>
      rw [hf] at h0
      obtain ⟨r', a, h0⟩ := h0
      simp only at h0
      subst h0
      simp only
      rw [if_neg (not_lt.2 (hb x (by simp)))]
      obtain ⟨e, he0, he, heq⟩ := sumLoop_val Q prm bot H' k st' (acc + Real.exp x) L (fun σ hσ => hb σ (List.mem_cons_of_mem _ hσ)) (fun i => by
        have h1 := hcall (i + 1)
        simp only [List.getElem?_cons_succ] at h1 ⊢
        rw [call, hf] at h1
        exact h1)
      refine ⟨e, he0, ?_, ?_⟩
      · have := Real.exp_pos H'
        push_cast
        linarith
      · rw [heq, List.take_succ_cons, List.map_cons, List.sum_cons]
        congr 1
        ring

/-- The first `k` of a list sorted up to a factor: no `k` members weigh more. -/
theorem sum_best {α : Type*} [DecidableEq α] (w : α → ℝ) (hw : ∀ a, 0 ≤ w a) (c : ℝ) (hc : 1 ≤ c) (L : List α) (hnd : L.Nodup) (hord : L.Pairwise fun a b => w b ≤ c * w a)
    (k : Nat) (T : Finset α) (hT : ∀ a ∈ T, a ∈ L) (hk : T.card ≤ k) : ∑ a ∈ T, w a ≤ c * ((L.take k).map w).sum := by
  have hndF : (L.take k).Nodup := hnd.sublist (List.take_sublist _ _)
  set F := (L.take k).toFinset with hF
  have hsum : ((L.take k).map w).sum = ∑ a ∈ F, w a := (List.sum_toFinset _ hndF).symm
  rw [hsum]
  by_cases hlen : L.length ≤ k
  · have hFL : F = L.toFinset := by rw [hF, List.take_of_length_le hlen]
    have h1 : ∑ a ∈ T, w a ≤ ∑ a ∈ F, w a := Finset.sum_le_sum_of_subset_of_nonneg (fun a ha => by rw [hFL]; exact List.mem_toFinset.2 (hT a ha)) (fun a _ _ => hw a)
    have h2 : 0 ≤ ∑ a ∈ F, w a := Finset.sum_nonneg fun a _ => hw a
    nlinarith
  · have hcardF : F.card = k := by rw [hF, List.toFinset_card_of_nodup hndF, List.length_take]; omega
    have hcard : (T \ F).card ≤ (F \ T).card := by
      have h1 := Finset.card_sdiff_add_card_inter T F
      have h2 := Finset.card_sdiff_add_card_inter F T
      rw [Finset.inter_comm F T] at h2
      omega
    have hprec : ∀ f ∈ F, ∀ t ∈ T \ F, w t ≤ c * w f := by
      intro f hf t ht
      rw [Finset.mem_sdiff] at ht
      have ht2 : t ∈ L.drop k := by
        have := hT t ht.1
        rw [← List.take_append_drop k L, List.mem_append] at this
        exact this.resolve_left fun h => ht.2 (List.mem_toFinset.2 h)
      rw [← List.take_append_drop k L, List.pairwise_append] at hord
      exact hord.2.2 f (List.mem_toFinset.1 hf) t ht2
    -- an injection from the rest of T to the rest of F
    have h1 : ∑ t ∈ T \ F, w t ≤ c * ∑ f ∈ F \ T, w f := by
      rcases Nat.eq_zero_or_pos (T \ F).card with h0 | hpos
      · rw [Finset.card_eq_zero.1 h0, Finset.sum_empty]
        exact mul_nonneg (by linarith) (Finset.sum_nonneg fun a _ => hw a)
      · obtain ⟨S, hS, hScard⟩ := Finset.exists_subset_card_eq hcard
        obtain ⟨e⟩ : Nonempty ((T \ F : Finset α) ≃ S) := ⟨Finset.equivOfCardEq hScard.symm⟩
        calc ∑ t ∈ T \ F, w t = ∑ t : (T \ F : Finset α), w t := (Finset.sum_coe_sort _ _).symm
          _ ≤ ∑ t : (T \ F : Finset α), c * w (e t) := Finset.sum_le_sum fun t _ => hprec _ (Finset.mem_sdiff.1 (hS (e t).2)).1 _ t.2
          _ = ∑ s : S, c * w s := Equiv.sum_comp e (fun s : S => c * w s)
          _ = ∑ s ∈ S, c * w s := Finset.sum_coe_sort S (fun s => c * w s)
          _ = c * ∑ s ∈ S, w s := (Finset.mul_sum _ _ _).symm
          _ ≤ c * ∑ f ∈ F \ T, w f := mul_le_mul_of_nonneg_left (Finset.sum_le_sum_of_subset_of_nonneg hS fun a _ _ => hw a) (by linarith)
    have h2 : ∑ a ∈ T, w a = ∑ a ∈ T \ F, w a + ∑ a ∈ T ∩ F, w a := by
      rw [add_comm]; exact (Finset.sum_inter_add_sum_sdiff T F w).symm
    have h3 : ∑ a ∈ F, w a = ∑ a ∈ F \ T, w a + ∑ a ∈ T ∩ F, w a := by
      rw [add_comm, Finset.inter_comm]; exact (Finset.sum_inter_add_sum_sdiff F T w).symm
    have h4 : 0 ≤ ∑ a ∈ T ∩ F, w a := Finset.sum_nonneg fun a _ => hw a
    rw [h2, h3]
    nlinarith

end MurtyLik
end RFS
