import Verif.Props.LMBMurty
import Verif.Lemmas.LMBRuns
import Mathlib.Data.Fintype.Perm
import Mathlib.Tactic.IntervalCases

/-!
C48 and C93: the 200 associations that Murty's algorithm lists for a large partition are not enough. Six tracks and six measurements, every track equally close to every
measurement: all 720 complete associations are equally likely, the update sums 200 of them and none with a missed track.
-/

set_option linter.unusedSectionVars false

namespace RFS
namespace LMBProps
open GM GMB CBM Partition RFSLik Assoc PartitionProps RFSLikProps LMB MurtyBlockProps

variable {d : Nat}

/-- The likelihood table of the witness. -/
def allOne : Fin 6 → Fin 6 → ℝ := fun _ _ => 1

/-- Probabilities of detection and existence of the witness. -/
noncomputable def halves : Fin 6 → ℝ := fun _ => 1 / 2

theorem allOne_linked (u v : Fin 6 ⊕ Fin 6) : Linked allOne 0 u v := by
  have h : ∀ i j, (0 : ℝ) < allOne i j := fun _ _ => one_pos
  rcases u with u | u <;> rcases v with v | v
  · exact .col u 0 _ (h _ _) (.row v 0 _ (h _ _) (.refl _))
  · exact .col u v _ (h _ _) (.refl _)
  · exact .row v u _ (h _ _) (.refl _)
  · exact .row 0 u _ (h _ _) (.col 0 v _ (h _ _) (.refl _))

theorem allOne_comps : IsComponents allOne 0 1 (fun _ => 0) :=
  ⟨by simp, fun x hx => ⟨.inl 0, by omega⟩, fun u v => by
    simp only [true_iff]
    exact (linked_iff_conn _ _ _ _).1 (allOne_linked u v)⟩

theorem exp_small : Real.exp (-1000) ≤ 1 := Real.exp_le_one_iff.2 (by norm_num)

theorem allOne_floored : floored allOne = allOne :=
  floored_dense _ (fun _ _ => zero_le_one) fun _ _ _ => exp_small

theorem one_partition : ∃ o : Obj 6 6, partition 1 (fun _ : Fin 6 ⊕ Fin 6 => 0) none = some o ∧ o.nP = 1 ∧ o.I 0 = List.finRange 6 ∧ o.J 0 = List.finRange 6 ∧ o.zero = none := by
  have h : ((partition 1 (fun _ : Fin 6 ⊕ Fin 6 => 0) none).map fun o => (o.nP, o.I 0, o.J 0, o.zero)) = some (1, List.finRange 6, List.finRange 6, none) := by
    decide +kernel
  obtain ⟨o, ho, h2⟩ := Option.map_eq_some_iff.1 h
  simp only [Prod.mk.injEq] at h2
  exact ⟨o, ho, h2.1, h2.2.1, h2.2.2.1, h2.2.2.2⟩

/-- The association of a permutation. -/
def ofPerm (σ : Equiv.Perm (Fin 6)) : Fin (List.finRange 6).length → Option (Fin (List.finRange 6).length) :=
  fun r => some ((σ (r.cast (List.length_finRange ..))).cast (List.length_finRange ..).symm)

theorem ofPerm_inj : Function.Injective ofPerm := by
  intro σ τ h
  ext r
  have := congrFun h (r.cast (List.length_finRange ..).symm)
  simp only [ofPerm, Option.some.injEq] at this
  have := congrArg Fin.val this
  simpa using this

theorem ofPerm_one (σ : Equiv.Perm (Fin 6)) : OneToOne (ofPerm σ) := by
  intro m m' z h h'
  simp only [ofPerm, Option.some.injEq] at h h'
  have := congrArg Fin.val (h.trans h'.symm)
  simp only [Fin.val_cast] at this
  have := σ.injective (Fin.ext this)
  exact Fin.ext (congrArg Fin.val this)

/-- The weight of an association depends on the number of missed tracks. -/
theorem weight_allOne (A : Fin (List.finRange 6).length → Option (Fin (List.finRange 6).length)) :
    assocWeight allOne halves halves (List.finRange 6) (List.finRange 6) A = ∏ r, if A r = none then (3 / 4 : ℝ) else 1 := by
  unfold assocWeight
  refine Finset.prod_congr rfl fun r _ => ?_
  cases A r with
  | none => simp only [halves, if_true]; norm_num
  | some c => simp only [allOne, reduceCtorEq, if_false]; exact max_eq_left exp_small

theorem weight_ofPerm (σ : Equiv.Perm (Fin 6)) : assocWeight allOne halves halves (List.finRange 6) (List.finRange 6) (ofPerm σ) = 1 := by
  rw [weight_allOne]
  exact Finset.prod_eq_one fun r _ => if_neg (by simp [ofPerm])

theorem weight_le_one (A) : assocWeight allOne halves halves (List.finRange 6) (List.finRange 6) A ≤ 1 := by
  rw [weight_allOne]
  exact Finset.prod_le_one (fun r _ => by split <;> norm_num) (fun r _ => by split <;> norm_num)

theorem weight_missed (A) (h : ∃ r, A r = none) : assocWeight allOne halves halves (List.finRange 6) (List.finRange 6) A ≤ 3 / 4 := by
  obtain ⟨r, hr⟩ := h
  rw [weight_allOne, ← Finset.mul_prod_erase _ _ (Finset.mem_univ r), if_pos hr]
  have := Finset.prod_le_one (s := Finset.univ.erase r) (f := fun r => if A r = none then (3 / 4 : ℝ) else 1) (fun r _ => by split <;> norm_num) (fun r _ => by split <;> norm_num)
  linarith

/-- The first 200 associations that Murty's algorithm lists are complete. -/
theorem first_complete (H : ℝ) (hH : H < 1) (B) (hB : BestFirst allOne halves halves (List.finRange 6) (List.finRange 6) H B) :
    (B.take 200).length = 200 ∧ ∀ A ∈ B.take 200, ∀ r, A r ≠ none := by
  classical
  have hin : ∀ σ, ofPerm σ ∈ B := fun σ => hB.complete _ (ofPerm_one σ) (by rw [weight_ofPerm]; exact hH)
  have hcard : (Finset.univ.image ofPerm).card = 720 := by
    rw [Finset.card_image_of_injective _ ofPerm_inj, Finset.card_univ, Fintype.card_perm, Fintype.card_fin]
    rfl
  have hlen : 720 ≤ B.length := by
    rw [← hcard, ← List.toFinset_card_of_nodup hB.nodup]
    refine Finset.card_le_card fun A hA => ?_
    obtain ⟨σ, -, rfl⟩ := Finset.mem_image.1 hA
    exact List.mem_toFinset.2 (hin σ)
  have hl2 : (B.take 200).length = 200 := by rw [List.length_take]; omega
  refine ⟨hl2, fun A hA r hr => ?_⟩
  obtain ⟨σ, hσ⟩ : ∃ σ, ofPerm σ ∈ B.drop 200 := by
    by_contra hn
    have hsub : Finset.univ.image ofPerm ⊆ (B.take 200).toFinset := by
      intro A hA
      obtain ⟨σ, -, rfl⟩ := Finset.mem_image.1 hA
      have := hin σ
      rw [← List.take_append_drop 200 B, List.mem_append] at this
      rcases this with h | h
      · exact List.mem_toFinset.2 h
      · exact absurd ⟨σ, h⟩ hn
    have h1 := Finset.card_le_card hsub
    have h2 := List.toFinset_card_le (B.take 200)
    omega
  have hp := hB.order
  rw [← List.take_append_drop 200 B, List.pairwise_append] at hp
  have := hp.2.2 A hA _ hσ
  rw [weight_ofPerm] at this
  have hw := weight_missed A ⟨r, hr⟩
  have hexp : Real.exp ((((List.finRange 6).length + (List.finRange 6).length : ℕ) : ℝ) * (1 / 10 ^ 12)) < 4 / 3 := by
    have : Real.exp (1 / 4) ≤ 4 / 3 := by
      have h := Real.one_sub_le_exp_neg (1 / 4 : ℝ)
      rw [Real.exp_neg] at h
      have hp := Real.exp_pos (1 / 4 : ℝ)
      rw [le_inv_comm₀ (by norm_num) hp] at h
      exact h.trans (by norm_num)
    refine lt_of_lt_of_le (Real.exp_lt_exp.2 ?_) this
    rw [List.length_finRange]
    norm_num
  have h1 := mul_le_mul_of_nonneg_left hw (Real.exp_pos ((((List.finRange 6).length + (List.finRange 6).length : ℕ) : ℝ) * (1 / 10 ^ 12))).le
  have h2 := mul_lt_mul_of_pos_right hexp (by norm_num : (0 : ℝ) < 3 / 4)
  exact absurd (this.trans_lt (lt_of_le_of_lt h1 h2)) (by norm_num)

/-- What an assignment adds to the weight of a track it adds to the existence probability. -/
theorem rowStep_sum {n nZ : Nat} (pd pe : Fin n → ℝ) (cols : List (Fin nZ)) (w : ℝ) (t t' : Tab n nZ) (x : Fin n × Nat) (ht : ∀ m, ∑ k, t.mw m k = t.upd m)
    (h : rowStep pd pe cols w t x = some t') : ∀ m, ∑ k, t'.mw m k = t'.upd m := by
  classical
  intro m
  have key : ∀ (k0 : Option (Fin nZ)) (v : ℝ), (∑ k, if m = x.1 ∧ k = k0 then t.mw m k + v else t.mw m k) = if m = x.1 then t.upd m + v else t.upd m := by
    intro k0 v
    by_cases hm : m = x.1
    · simp only [hm, true_and, if_true]
      rw [← ht, ← Finset.add_sum_erase _ _ (Finset.mem_univ k0), if_pos rfl, ← Finset.add_sum_erase (a := k0) _ (fun k => t.mw x.1 k) (Finset.mem_univ k0)]
      rw [Finset.sum_congr rfl (g := fun k => t.mw x.1 k) fun k hk => if_neg (Finset.ne_of_mem_erase hk)]
      ring
    · simp only [hm, false_and, if_false]
      exact ht m
  unfold rowStep at h
  split at h
  · cases h
    exact key _ _
  · split at h
    · cases h
    · cases h
      exact key _ _

theorem assign_sum {n nZ : Nat} (pd pe : Fin n → ℝ) (rows : List (Fin n)) (cols : List (Fin nZ)) (t t' : Tab n nZ) (o : List Nat) (w : ℝ) (ht : ∀ m, ∑ k, t.mw m k = t.upd m)
    (h : assign pd pe rows cols t o w = some t') : ∀ m, ∑ k, t'.mw m k = t'.upd m := by
  unfold assign at h
  exact MBFProps.foldlM_keep (fun t : Tab n nZ => ∀ m, ∑ k, t.mw m k = t.upd m) _ _ (fun t t' x _ ht h => rowStep_sum pd pe cols w t t' x ht h) { t with lik := t.lik + w } _ ht h

/-- The update of the witness: all 200 summed associations see all tracks. -/
theorem update_allOne (l : Lm ℝ d) (Q : ∀ n, Murty.PQ ℝ n) (mfuel fuel : Nat) (hmf : 156 < mfuel) :
    ∃ (s : St d 6 6) (e : ℝ), update allOne halves halves (fun _ => addGaussian empty l 1) (fun _ _ => addGaussian empty l 2) (murtyOf Q 10000 mfuel allOne halves halves) fuel 1 (fun _ => 0) = some s ∧
      0 ≤ e ∧ e ≤ 200 * Real.exp (-900) ∧ s.l = 200 + e ∧ ∀ m, 200 / (200 + e) ≤ s.P m := by
  classical
  obtain ⟨o, ho, hn, hI, hJ, hz⟩ := one_partition
  have hlo : Real.exp (-1) ≤ 3 / 4 := by
    rw [Real.exp_neg]
    have h := Real.add_one_le_exp (1 : ℝ)
    exact (inv_anti₀ (by norm_num) (by linarith : (2 : ℝ) ≤ Real.exp 1)).trans (by norm_num)
  obtain ⟨t, B, e, h1, h2, h3, h4, h5, h6⟩ := block_murty Q 10000 mfuel allOne halves halves (-1) 0 (fun _ _ => ⟨zero_le_one, by rw [Real.exp_zero]; exact le_refl _⟩)
    (fun _ => by unfold halves; norm_num) (fun _ => by unfold halves; norm_num) (fun _ => by unfold halves; refine hlo.trans (by norm_num)) (by norm_num) (by norm_num) le_rfl
    (List.finRange 6) (List.finRange 6) (List.nodup_finRange 6) (by decide) (by decide) (by rw [List.length_finRange]; norm_num) (by rw [List.length_finRange]; omega)
    ⟨0, fun _ _ => 0, fun _ => 0⟩ _ rfl
  have hH : Real.exp (-1000 + (((List.finRange 6).length + (List.finRange 6).length : ℕ) : ℝ) * 0 + 2 * (((List.finRange 6).length + (List.finRange 6).length : ℕ) : ℝ) * (1 / 10 ^ 12)) ≤ Real.exp (-900) := by
    refine Real.exp_le_exp.2 ?_
    rw [List.length_finRange]
    norm_num
  obtain ⟨g1, g2⟩ := first_complete _ (lt_of_le_of_lt hH (by rw [Real.exp_lt_one_iff]; norm_num)) B h2
  have hw : ∀ A ∈ B.take 200, assocWeight allOne halves halves (List.finRange 6) (List.finRange 6) A = 1 := fun A hA => by
    rw [weight_allOne]
    exact Finset.prod_eq_one fun r _ => if_neg (g2 A hA r)
  have hsum : ((B.take 200).map (assocWeight allOne halves halves (List.finRange 6) (List.finRange 6))).sum = 200 := by
    rw [List.map_congr_left (g := fun _ => (1 : ℝ)) hw, List.map_const', List.sum_replicate, g1]
    norm_num
  have hlik : t.lik = 200 + e := by rw [h5, hsum]; ring
  have hupd : ∀ m, ∃ e', 0 ≤ e' ∧ e' ≤ e ∧ t.upd m = 200 + e' := by
    intro m
    obtain ⟨e', a, b, c⟩ := h6 (m.cast (List.length_finRange ..).symm)
    refine ⟨e', a, b, ?_⟩
    have hg : (List.finRange 6).get (m.cast (List.length_finRange ..).symm) = m := by simp
    rw [hg] at c
    rw [c, List.map_congr_left (g := fun _ => (1 : ℝ)) (fun A hA => ?_), List.map_const', List.sum_replicate, g1]
    · norm_num
    · rw [hw A hA, one_mul]
      unfold existsGiven
      cases hr : A (m.cast (List.length_finRange ..).symm) with
      | none => exact absurd hr (g2 A hA _)
      | some _ => rfl
  have hmw : ∀ m, ∑ k, t.mw m k = t.upd m :=
    MBFProps.foldlM_keep (fun t : Tab 6 6 => ∀ m, ∑ k, t.mw m k = t.upd m) _ _ (fun t t' x _ ht h => assign_sum halves halves _ _ t t' x.1 x.2 ht h) _ _ (by simp) h1
  have hmw0 : ∀ m k, 0 ≤ t.mw m k :=
    MBFProps.foldlM_keep (fun t : Tab 6 6 => ∀ m k, 0 ≤ t.mw m k) _ _ (fun t t' x hx ht h => MBFProps.assign_mw (fun _ => by unfold halves; norm_num) (fun _ => by unfold halves; norm_num) _ _ (by
      unfold murtyOf at hx
      obtain ⟨y, -, rfl⟩ := List.mem_map.1 hx
      exact (Real.exp_pos _).le) x.1 ht h) _ _ (by simp) h1
  have hpos : (0 : ℝ) < 200 + e := by linarith
  obtain ⟨s', c1, c2, c3, -, c5⟩ := track_fold (List.finRange 6) t.lik (by rw [hlik]; exact hpos.ne') (List.finRange 6)
    (⟨halves, fun _ => addGaussian empty l 1, fun _ _ => addGaussian empty l 2, t.mw, t.upd, 1⟩ : St d 6 6) (List.nodup_finRange 6) (by
      intro r _
      refine ⟨by simp [addGaussian, GM.empty], fun _ => by simp [addGaussian, GM.empty], ?_⟩
      rw [wsum_built]
      have e1 : wsum (addGaussian (empty : GMix ℝ d) l 1).g = 1 := by simp [wsum, addGaussian, GM.empty]
      have e3 : wsum (addGaussian (empty : GMix ℝ d) l 2).g = 2 := by simp [wsum, addGaussian, GM.empty]
      simp only [e1, e3, one_mul]
      have e2 := hmw r
      rw [Fintype.sum_option] at e2
      rw [← List.ofFn_eq_map, List.sum_ofFn, ← Finset.mul_sum]
      have e4 : 0 ≤ ∑ c, t.mw r (some c) := Finset.sum_nonneg fun c _ => hmw0 r (some c)
      obtain ⟨e', a, -, c⟩ := hupd r
      rw [c] at e2
      linarith)
  refine ⟨{ s' with l := s'.l * t.lik }, e, ?_, h3, h4.trans (by linarith), ?_, ?_⟩
  · unfold update
    rw [ho, Option.bind_some, hn]
    show partStep _ _ _ _ _ o _ 0 >>= _ = _
    have : partStep allOne halves halves (murtyOf Q 10000 mfuel allOne halves halves) fuel o
        (⟨halves, fun _ => addGaussian empty l 1, fun _ _ => addGaussian empty l 2, fun _ _ => 0, fun _ => 0, 1⟩ : St d 6 6) 0 = some { s' with l := s'.l * t.lik } := by
      unfold partStep
      simp only [getPartitionSize, getPartition, hI, hJ, hz, List.length_finRange]
      simp [h1, c1]
    rw [this]
    rfl
  · show s'.l * t.lik = _
    rw [c3, hlik]
    show 1 * _ = _
    ring
  · intro m
    show _ ≤ s'.P m
    rw [(c5 m (List.mem_finRange m)).1, hlik]
    obtain ⟨e', a, -, c⟩ := hupd m
    show _ ≤ t.upd m / _
    rw [c]
    exact div_le_div_of_nonneg_right (by linarith) hpos.le

theorem le_mass {n nZ : Nat} (L : Fin n → Fin nZ → ℝ) (pd pe : Fin n → ℝ) (hw : ∀ h, 0 ≤ weight L pd pe h) (E : Hyp n nZ → Prop) (F : Finset (Hyp n nZ)) (hF : ∀ h ∈ F, h.Valid ∧ E h) :
    ∑ h ∈ F, weight L pd pe h ≤ mass L pd pe E := by
  classical
  refine Finset.sum_le_sum_of_subset_of_nonneg (fun h hh => ?_) fun h _ _ => hw h
  rw [Finset.mem_filter]
  exact ⟨Finset.mem_univ _, hF h hh⟩

theorem mass_lt {n nZ : Nat} (L : Fin n → Fin nZ → ℝ) (pd pe : Fin n → ℝ) (hw : ∀ h, 0 ≤ weight L pd pe h) (E : Hyp n nZ → Prop) (h0 : Hyp n nZ) (hv : h0.Valid) (hE : ¬ E h0) :
    mass L pd pe E + weight L pd pe h0 ≤ mass L pd pe fun _ => True := by
  classical
  unfold mass
  rw [add_comm, ← Finset.sum_insert (a := h0) (by rw [Finset.mem_filter]; exact fun h => hE h.2.2)]
  refine le_mass L pd pe hw (fun _ => True) _ fun h hh => ?_
  rcases Finset.mem_insert.1 hh with rfl | hh
  · exact ⟨hv, trivial⟩
  · rw [Finset.mem_filter] at hh
    exact ⟨hh.2.1, trivial⟩

/-- The full claim of C93 is false: six tracks, six measurements. All hypotheses together have a weight of more than 720, the factor is at most 201. -/
theorem C93_violated (l : Lm ℝ d) (Q : ∀ n, Murty.PQ ℝ n) (mfuel fuel : Nat) (hmf : 156 < mfuel) :
    ∃ s : St d 6 6, update allOne halves halves (fun _ => addGaussian empty l 1) (fun _ _ => addGaussian empty l 2) (murtyOf Q 10000 mfuel allOne halves halves) fuel 1 (fun _ => 0) = some s ∧
      IsComponents allOne 0 1 (fun _ => 0) ∧ s.l ≤ 201 ∧ 720 ≤ mass allOne halves halves (fun _ => True) := by
  classical
  obtain ⟨s, e, h1, h2, h3, h4, -⟩ := update_allOne l Q mfuel fuel hmf
  refine ⟨s, h1, allOne_comps, ?_, ?_⟩
  · have : Real.exp (-900) ≤ 1 / 200 := by
      rw [Real.exp_neg, one_div]
      exact inv_anti₀ (by norm_num) (by have := Real.add_one_le_exp (900 : ℝ); linarith)
    rw [h4]; linarith
  · have hinj : Function.Injective (fun σ : Equiv.Perm (Fin 6) => (fun m => some (some (σ m)) : Hyp 6 6)) := by
      intro σ τ h
      ext m
      have := congrFun h m
      simp only [Option.some.injEq] at this
      rw [this]
    have hw0 : ∀ h : Hyp 6 6, 0 ≤ weight allOne halves halves h := by
      intro h
      refine Finset.prod_nonneg fun m _ => ?_
      unfold allOne halves
      split <;> norm_num
    calc (720 : ℝ) = ∑ h ∈ Finset.univ.image (fun σ : Equiv.Perm (Fin 6) => (fun m => some (some (σ m)) : Hyp 6 6)), weight allOne halves halves h := by
          rw [Finset.sum_image fun a _ b _ h => hinj h, Finset.sum_congr rfl (g := fun _ => (1 : ℝ)), Finset.sum_const, Finset.card_univ, Fintype.card_perm, Fintype.card_fin]
          · norm_num [Nat.factorial]
          · intro σ _
            exact Finset.prod_eq_one fun m _ => rfl
      _ ≤ _ := by
          refine le_mass _ _ _ hw0 _ _ fun h hh => ?_
          obtain ⟨σ, -, rfl⟩ := Finset.mem_image.1 hh
          refine ⟨fun m m' z h1 h2 => ?_, trivial⟩
          simp only [Option.some.injEq] at h1 h2
          exact σ.injective (h1.trans h2.symm)

/-- The full claim of C48 is false: six tracks, six measurements. Every track comes out more likely to exist than it is. -/
theorem C48_violated (l : Lm ℝ d) (Q : ∀ n, Murty.PQ ℝ n) (mfuel fuel : Nat) (hmf : 156 < mfuel) :
    ∃ s : St d 6 6, update allOne halves halves (fun _ => addGaussian empty l 1) (fun _ _ => addGaussian empty l 2) (murtyOf Q 10000 mfuel allOne halves halves) fuel 1 (fun _ => 0) = some s ∧
      IsComponents allOne 0 1 (fun _ => 0) ∧ ∀ m, post allOne halves halves (fun h => h m ≠ none) < s.P m := by
  classical
  obtain ⟨s, e, h1, h2, h3, -, h5⟩ := update_allOne l Q mfuel fuel hmf
  refine ⟨s, h1, allOne_comps, fun m => lt_of_lt_of_le ?_ (h5 m)⟩
  have hw0 : ∀ h : Hyp 6 6, 0 ≤ weight allOne halves halves h := by
    intro h
    refine Finset.prod_nonneg fun m _ => ?_
    unfold allOne halves
    split <;> norm_num
  have hw1 : ∀ h : Hyp 6 6, weight allOne halves halves h ≤ 1 := by
    intro h
    refine Finset.prod_le_one (fun m _ => ?_) fun m _ => ?_ <;> unfold allOne halves <;> split <;> norm_num
  set M := mass allOne halves halves (fun _ => True) with hM
  have hn : weight allOne halves halves (fun _ : Fin 6 => (none : Option (Option (Fin 6)))) = 1 / 64 := by
    unfold weight
    simp only [halves, Finset.prod_const, Finset.card_univ, Fintype.card_fin]
    norm_num
  have hvalid : Hyp.Valid (fun _ : Fin 6 => (none : Option (Option (Fin 6)))) := fun _ _ _ h => by simp at h
  have hE : mass allOne halves halves (fun h => h m ≠ none) + 1 / 64 ≤ M := by
    rw [hM, ← hn]
    exact mass_lt _ _ _ hw0 _ _ hvalid (by simp)
  have hMu : M ≤ 262144 := by
    rw [hM]
    unfold mass
    refine (Finset.sum_le_card_nsmul _ _ 1 fun h _ => hw1 h).trans ?_
    rw [nsmul_eq_mul, mul_one]
    have hc : Fintype.card (Hyp 6 6) = 262144 := by
      rw [Fintype.card_fun]
      simp
    have h : ∀ F : Finset (Hyp 6 6), (F.card : ℝ) ≤ 262144 := fun F => by
      have := Finset.card_le_univ F
      rw [hc] at this
      exact_mod_cast this
    exact h _
  have hE0 : 0 ≤ mass allOne halves halves (fun h => h m ≠ none) := Finset.sum_nonneg fun h _ => hw0 h
  have hMpos : 0 < M := by linarith
  have hexp : Real.exp (-900) * 2 ^ 30 ≤ 1 := by
    have h30 : (2 : ℝ) ^ 30 ≤ Real.exp 900 := by
      rw [show (900 : ℝ) = (30 : ℕ) * 30 by norm_num, Real.exp_nat_mul]
      exact pow_le_pow_left₀ (by norm_num) (by have := Real.add_one_le_exp (30 : ℝ); linarith) 30
    rw [Real.exp_neg, inv_mul_le_iff₀ (Real.exp_pos _), mul_one]
    exact h30
  unfold post
  rw [div_lt_div_iff₀ hMpos (by linarith)]
  have hb : mass allOne halves halves (fun h => h m ≠ none) ≤ M - 1 / 64 := by linarith
  have he : e ≤ 200 / 2 ^ 30 := by
    refine h3.trans ?_
    rw [le_div_iff₀ (by norm_num)]
    linarith
  have : mass allOne halves halves (fun h => h m ≠ none) * (200 + e) ≤ (M - 1 / 64) * (200 + e) := mul_le_mul_of_nonneg_right hb (by linarith)
  have h6 : M * e ≤ 262144 * (200 / 2 ^ 30) := mul_le_mul hMu he h2 (by norm_num)
  have : (M - 1 / 64) * (200 + e) < 200 * M := by
    have : (262144 : ℝ) * (200 / 2 ^ 30) < 200 / 64 := by norm_num
    nlinarith
  linarith

end LMBProps
end RFS
