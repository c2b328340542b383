import Verif.Lemmas.LMB
import Verif.Props.RFSLikelihood

set_option linter.unusedSectionVars false

/-!
The loop of the LMB map update over the partitions.
-/

namespace RFS
namespace LMB
open GM GMB CBM Partition RFSLik Assoc PermLexProps PartitionProps RFSLikProps

variable {d n nZ : Nat}

theorem S_nonneg (F : Fin n → Fin nZ → ℝ) (miss : Fin n → ℝ) (clut : Fin nZ → ℝ) (R : Finset (Fin n)) (C : Finset (Fin nZ)) (hF : ∀ m z, 0 ≤ F m z)
    (hm : ∀ m, 0 ≤ miss m) (hc : ∀ z, 0 ≤ clut z) : 0 ≤ S F miss clut R C := by
  classical
  refine Finset.sum_nonneg fun f _ => mul_nonneg (Finset.prod_nonneg fun m _ => ?_) (Finset.prod_nonneg fun z _ => ?_)
  · unfold rowW
    cases f m with
    | none => exact hm m
    | some z => exact hF m z
  · unfold colW
    split
    · exact zero_le_one
    · exact hc z

theorem S_pos (F : Fin n → Fin nZ → ℝ) (miss : Fin n → ℝ) (clut : Fin nZ → ℝ) (R : Finset (Fin n)) (C : Finset (Fin nZ)) (hF : ∀ m z, 0 ≤ F m z)
    (hm : ∀ m, 0 ≤ miss m) (hc : ∀ z, 0 < clut z) (f : Fin n → Option (Fin nZ)) (hf : f ∈ Match R C) (hpos : ∀ m ∈ R, 0 < rowW F miss f m) :
    0 < S F miss clut R C := by
  classical
  have hnn : ∀ g ∈ Match R C, 0 ≤ (∏ m ∈ R, rowW F miss g m) * ∏ z ∈ C, colW clut g z := by
    intro g _
    refine mul_nonneg (Finset.prod_nonneg fun m _ => ?_) (Finset.prod_nonneg fun z _ => ?_)
    · unfold rowW
      cases g m with
      | none => exact hm m
      | some z => exact hF m z
    · unfold colW
      split
      · exact zero_le_one
      · exact (hc z).le
  refine lt_of_lt_of_le ?_ (Finset.single_le_sum hnn hf)
  refine mul_pos (Finset.prod_pos hpos) (Finset.prod_pos fun z _ => ?_)
  unfold colW
  split
  · exact zero_lt_one
  · exact hc z

/-- What a library call for the connected components gives. -/
theorem blocks (L : Fin n → Fin nZ → ℝ) (ncc : Nat) (lab : Fin n ⊕ Fin nZ → Nat) (hcomp : IsComponents L 0 ncc lab) :
    ∃ o, partition ncc lab none = some o ∧ (∀ i, ∃! p, p < o.nP ∧ i ∈ o.I p) ∧ (∀ j, ∃! p, p < o.nP ∧ j ∈ o.J p) ∧
      (∀ p < o.nP, (o.I p).Nodup ∧ (o.J p).Nodup) ∧
      (∀ p < o.nP, o.zero = some p → (∀ i, i ∈ o.I p ↔ EmptyRow L 0 i) ∧ ∀ j, j ∈ o.J p ↔ EmptyCol L 0 j) ∧
      (∀ p < o.nP, o.zero ≠ some p → o.I p ≠ [] ∧ o.J p ≠ [] ∧ ∀ i ∈ o.I p, ∀ j ∈ o.J p, Linked L 0 (.inl i) (.inr j)) ∧
      (∀ m z, Linked L 0 (.inl m) (.inr z) → ∀ p < o.nP, m ∈ o.I p → z ∈ o.J p) ∧
      (∀ p < o.nP, o.zero ≠ some p → ∀ j ∈ o.J p, ∀ j' ∈ o.J p, Linked L 0 (.inr j) (.inr j')) ∧
      ∀ z z', Linked L 0 (.inr z) (.inr z') → ∀ p < o.nP, z ∈ o.J p → z' ∈ o.J p := by
  obtain ⟨o, ho, hI, hJ, hnd, hcross⟩ := C11_block_decomposition hcomp
  obtain ⟨o', ho', hz, -, -, hlink, hget⟩ := C12_zero_partition hcomp
  rw [ho] at ho'
  cases ho'
  have hsame : ∀ u v, Linked L 0 u v → ∀ p < o.nP, (match u with | .inl i => i ∈ o.I p | .inr j => j ∈ o.J p) →
      (match v with | .inl i => i ∈ o.I p | .inr j => j ∈ o.J p) := by
    intro u v h
    induction h with
    | refl v => exact fun p _ h => h
    | col i j v hij _ ih =>
      intro p hp hi
      obtain ⟨q, ⟨hq, hjq⟩, -⟩ := hJ j
      by_cases hpq : p = q
      · subst hpq; exact ih p hp hjq
      · exact absurd hij (not_lt.2 (hcross p hp q hq hpq i hi j hjq))
    | row i j v hij _ ih =>
      intro p hp hj
      obtain ⟨q, ⟨hq, hiq⟩, -⟩ := hI i
      by_cases hpq : q = p
      · subst hpq; exact ih q hp hiq
      · exact absurd hij (not_lt.2 (hcross q hq p hp hpq i hiq j hj))
  refine ⟨o, ho, hI, hJ, hnd, fun p hp h0 => hz p hp (by simp [getPartition, h0]), fun p hp h0 => ?_, fun m z h p hp hm => hsame _ _ h p hp hm,
    fun p hp h0 => ?_, fun z z' h p hp hm => hsame _ _ h p hp hm⟩
  · obtain ⟨a, b, -, c, -⟩ := hlink p hp (by simp [getPartition, h0])
    exact ⟨a, b, c⟩
  · obtain ⟨-, -, -, -, c⟩ := hlink p hp (by simp [getPartition, h0])
    exact c

/-- Result for one partition, in terms of sums over the associations within it. -/
structure BlockSpec (L F : Fin n → Fin nZ → ℝ) (pd pe : Fin n → ℝ) (mix : Fin n → GMix ℝ d) (mm : Fin n → Fin nZ → GMix ℝ d) (o : Obj n nZ) (p : Nat)
    (s : St d n nZ) : Prop where
  P : ∀ m ∈ o.I p, s.P m = S F (missEx pd pe m) (fun _ => 1) (o.I p).toFinset (o.J p).toFinset / S F (miss0 pd pe) (fun _ => 1) (o.I p).toFinset (o.J p).toFinset
  seen : ∀ m ∈ o.I p, ∀ z, s.mw m (some z) =
    S (rowMod F m fun z' => if z' = z then F m z else 0) (Function.update (miss0 pd pe) m 0) (fun _ => 1) (o.I p).toFinset (o.J p).toFinset
  mixZero : o.zero = some p → ∀ m ∈ o.I p, s.mix m = mix m
  missed : o.zero ≠ some p → ∀ m ∈ o.I p, s.mw m none = S (rowMod F m fun _ => 0) (missEx pd pe m) (fun _ => 1) (o.I p).toFinset (o.J p).toFinset
  mix : o.zero ≠ some p → ∀ m ∈ o.I p, (s.mix m).g = normed (built (mix m) (mm m) (s.mw m) (o.J p)) ∧ (s.mix m).n = (s.mix m).g.length

/-- Standing assumptions on tables and mixtures. -/
structure Ok (L : Fin n → Fin nZ → ℝ) (pd pe : Fin n → ℝ) (mix : Fin n → GMix ℝ d) (mm : Fin n → Fin nZ → GMix ℝ d) : Prop where
  L0 : ∀ m z, 0 ≤ L m z
  pd1 : ∀ m, pd m ≤ 1
  pe0 : ∀ m, 0 ≤ pe m
  pp : ∀ m, pd m * pe m < 1
  mixn : ∀ m, (mix m).n = (mix m).g.length
  mmn : ∀ m z, (mm m z).n = (mm m z).g.length
  mix0 : ∀ m, 0 ≤ wsum (mix m).g
  mm0 : ∀ m z, 0 ≤ wsum (mm m z).g
  mmL : ∀ m z, 0 < L m z → 0 < wsum (mm m z).g

theorem missEx_nonneg (pd pe : Fin n → ℝ) (h1 : ∀ m, pd m ≤ 1) (h2 : ∀ m, 0 ≤ pe m) (h3 : ∀ m, pd m * pe m < 1) (m m' : Fin n) : 0 ≤ missEx pd pe m m' := by
  unfold missEx
  by_cases h : m' = m
  · subst h; simp only [Function.update_self]; exact mul_nonneg (h2 _) (by linarith [h1 m'])
  · rw [Function.update_of_ne h]; unfold miss0; linarith [h3 m']

theorem partStep_zero (L F : Fin n → Fin nZ → ℝ) (pd pe : Fin n → ℝ) (mix : Fin n → GMix ℝ d) (mm : Fin n → Fin nZ → GMix ℝ d) (hok : Ok L pd pe mix mm)
    (murty : List (Fin n) → List (Fin nZ) → List (List Nat × ℝ)) (fuel : Nat) (o : Obj n nZ) (p : Nat) (hz : o.zero = some p)
    (hnd : (o.I p).Nodup) (hF : ∀ m ∈ o.I p, ∀ z, F m z = 0) (s : St d n nZ)
    (hs : ∀ m ∈ o.I p, (∀ k, s.mw m k = 0) ∧ s.upd m = 0 ∧ s.mix m = mix m ∧ s.mm m = mm m) :
    ∃ s', partStep L pd pe murty fuel o s p = some s' ∧
      (∀ m, m ∉ o.I p → s'.P m = s.P m ∧ s'.mw m = s.mw m ∧ s'.upd m = s.upd m ∧ s'.mix m = s.mix m ∧ s'.mm m = s.mm m) ∧
      s'.l = s.l * S F (miss0 pd pe) (fun _ => 1) (o.I p).toFinset (o.J p).toFinset ∧ BlockSpec L F pd pe mix mm o p s' := by
  classical
  have hden : ∀ m, 1 - pd m * pe m ≠ 0 := fun m => (sub_pos.2 (hok.pp m)).ne'
  have hflag : ∀ e, (getPartition L o p e).1.flag = false := fun e => by simp [getPartition, hz]
  have hS : ∀ miss : Fin n → ℝ, S F miss (fun _ => 1) (o.I p).toFinset (o.J p).toFinset = ∏ m ∈ (o.I p).toFinset, miss m := by
    intro miss
    rw [S_zero _ _ _ _ _ (fun m hm z _ => hF m (List.mem_toFinset.1 hm) z), Finset.prod_eq_one (s := (o.J p).toFinset) (fun _ _ => rfl), mul_one]
  have hpos : (∏ m ∈ (o.I p).toFinset, miss0 pd pe m) ≠ 0 := Finset.prod_ne_zero_iff.2 fun m _ => hden m
  refine ⟨{ s with P := fun m => if m ∈ o.I p then pe m * (1 - pd m) / (1 - pd m * pe m) else s.P m, l := s.l * ((o.I p).map fun r => 1 - pd r * pe r).prod },
    ?_, ?_, ?_, ?_⟩
  · unfold partStep
    simp only [hflag, true_or, if_true]
    show Option.map _ ((o.I p).foldlM (missStep pd pe) s.P) = _
    rw [miss_fold pd pe hden]
    rfl
  · intro m hm; simp [hm]
  · show s.l * _ = s.l * _
    rw [hS, List.prod_toFinset _ hnd]
    rfl
  · constructor
    · intro m hm
      have hm' := List.mem_toFinset.2 hm
      show (if m ∈ o.I p then _ else _) = _
      rw [if_pos hm, hS, hS, ← Finset.mul_prod_erase _ _ hm', ← Finset.mul_prod_erase _ (miss0 pd pe) hm']
      rw [← Finset.mul_prod_erase _ _ hm'] at hpos
      have e : ∏ x ∈ (o.I p).toFinset.erase m, missEx pd pe m x = ∏ x ∈ (o.I p).toFinset.erase m, miss0 pd pe x :=
        Finset.prod_congr rfl fun x hx => by unfold missEx; rw [Function.update_of_ne (Finset.ne_of_mem_erase hx)]
      rw [e, mul_div_mul_right _ _ (right_ne_zero_of_mul hpos)]
      unfold missEx
      rw [Function.update_self]
      rfl
    · intro m hm z
      show s.mw m (some z) = _
      rw [(hs m hm).1, S_zero, Finset.prod_eq_zero (List.mem_toFinset.2 hm) (by simp), zero_mul]
      intro m' hm' z' _
      unfold rowMod
      by_cases h : m' = m
      · rw [if_pos h]; beta_reduce; split
        · exact hF m hm z
        · rfl
      · rw [if_neg h]; exact hF m' (List.mem_toFinset.1 hm') z'
    · intro _ m hm; exact (hs m hm).2.2.1
    · intro h; exact absurd hz h
    · intro h; exact absurd hz h

theorem partStep_block (L F : Fin n → Fin nZ → ℝ) (pd pe : Fin n → ℝ) (mix : Fin n → GMix ℝ d) (mm : Fin n → Fin nZ → GMix ℝ d) (hok : Ok L pd pe mix mm)
    (murty : List (Fin n) → List (Fin nZ) → List (List Nat × ℝ)) (fuel : Nat) (hf : 2 ^ 32 ≤ fuel) (o : Obj n nZ) (p : Nat) (hz : o.zero ≠ some p)
    (hnd : (o.I p).Nodup ∧ (o.J p).Nodup) (hJ0 : o.J p ≠ []) (h8 : (o.I p).length + (o.J p).length ≤ 8)
    (hF : ∀ m ∈ o.I p, ∀ z ∈ o.J p, F m z = max (L m z) eps) (hF0 : ∀ m z, 0 ≤ F m z) (hrow : ∀ m ∈ o.I p, ∃ z ∈ o.J p, 0 < L m z) (s : St d n nZ)
    (hs : ∀ m ∈ o.I p, (∀ k, s.mw m k = 0) ∧ s.upd m = 0 ∧ s.mix m = mix m ∧ s.mm m = mm m) :
    ∃ s', partStep L pd pe murty fuel o s p = some s' ∧
      (∀ m, m ∉ o.I p → s'.P m = s.P m ∧ s'.mw m = s.mw m ∧ s'.upd m = s.upd m ∧ s'.mix m = s.mix m ∧ s'.mm m = s.mm m) ∧
      s'.l = s.l * S F (miss0 pd pe) (fun _ => 1) (o.I p).toFinset (o.J p).toFinset ∧ BlockSpec L F pd pe mix mm o p s' := by
  classical
  have hflag : ∀ e, (getPartition L o p e).1.flag = true := fun e => by simp [getPartition, hz]
  have hlen : 0 < (o.J p).length := List.length_pos_of_ne_nil hJ0
  have heps : (0 : ℝ) < eps := Real.exp_pos _
  have hm0 : ∀ m, 0 < miss0 pd pe m := fun m => sub_pos.2 (hok.pp m)
  -- the tables of the code in terms of `F`
  have hSF : ∀ (G : (Fin n → Fin nZ → ℝ) → Fin n → Fin nZ → ℝ) miss,
      (∀ (A B : Fin n → Fin nZ → ℝ), (∀ m ∈ o.I p, ∀ z ∈ o.J p, A m z = B m z) → ∀ m ∈ o.I p, ∀ z ∈ o.J p, G A m z = G B m z) →
      S (G fun m z => max (L m z) eps) miss (fun _ => 1) (o.I p).toFinset (o.J p).toFinset = S (G F) miss (fun _ => 1) (o.I p).toFinset (o.J p).toFinset := by
    intro G miss hG
    refine S_congr _ _ _ _ _ _ _ _ (fun m hm z hz => ?_) (fun _ _ => rfl) (fun _ _ => rfl)
    exact hG _ _ (fun m hm z hz => (hF m hm z hz).symm) m (List.mem_toFinset.1 hm) z (List.mem_toFinset.1 hz)
  have hlikpos : 0 < S F (miss0 pd pe) (fun _ => 1) (o.I p).toFinset (o.J p).toFinset := by
    refine S_pos F _ _ _ _ hF0 (fun m => (hm0 m).le) (fun _ => one_pos) (fun _ => none) (mem_Match.2 ⟨fun _ _ => rfl, fun _ _ h => by simp at h, fun _ _ _ h => by simp at h⟩) ?_
    intro m _; exact hm0 m
  set B : Tab n nZ := ⟨S F (miss0 pd pe) (fun _ => 1) (o.I p).toFinset (o.J p).toFinset,
    fun m k => if m ∈ o.I p then (match k with
      | some z => S (rowMod F m fun z' => if z' = z then F m z else 0) (Function.update (miss0 pd pe) m 0) (fun _ => 1) (o.I p).toFinset (o.J p).toFinset
      | none => S (rowMod F m fun _ => 0) (missEx pd pe m) (fun _ => 1) (o.I p).toFinset (o.J p).toFinset) else s.mw m k,
    fun m => if m ∈ o.I p then S F (missEx pd pe m) (fun _ => 1) (o.I p).toFinset (o.J p).toFinset else s.upd m⟩ with hB
  have htab : lexTab (fun t q => assign pd pe (o.I p) (o.J p) t q (ex (permTerm L pd pe (o.I p) (o.J p) q))) fuel
      (PermLex.init (o.I p).length (o.J p).length true) ⟨0, s.mw, s.upd⟩ = some B := by
    rw [block_tab L pd pe hok.L0 hok.pp (o.I p) (o.J p) hnd.1 hnd.2 h8 (by omega) fuel hf _ _ rfl, hB]
    simp only [Option.some.injEq, Tab.mk.injEq, zero_add]
    refine ⟨?_, ?_, ?_⟩
    · rw [← hSF (fun A => A) _ (fun A B h => h), S_one]; rfl
    · funext m k
      by_cases hm : m ∈ o.I p
      · have hm' := List.mem_toFinset.2 hm
        simp only [if_pos hm, (hs m hm).1 k, zero_add]
        cases k with
        | some z =>
          simp only
          refine (sum_seen (fun m z => max (L m z) eps) pd pe (o.I p).toFinset (o.J p).toFinset m hm' z).trans ?_
          by_cases hzJ : z ∈ o.J p
          · refine hSF (fun A => rowMod A m fun z' => if z' = z then A m z else 0) _ ?_
            intro A B h m' hm2 z' hz'
            simp only [rowMod]
            split
            · split
              · exact h m hm z hzJ
              · rfl
            · exact h m' hm2 z' hz'
          · refine S_congr _ _ _ _ _ _ _ _ (fun m' hm2 z' hz' => ?_) (fun _ _ => rfl) (fun _ _ => rfl)
            simp only [rowMod]
            have hne : z' ≠ z := fun e => hzJ (e ▸ List.mem_toFinset.1 hz')
            rw [if_neg hne, if_neg hne]
            split
            · rfl
            · exact (hF m' (List.mem_toFinset.1 hm2) z' (List.mem_toFinset.1 hz')).symm
        | none =>
          simp only
          refine (sum_miss (fun m z => max (L m z) eps) pd pe hok.pp (o.I p).toFinset (o.J p).toFinset m hm').trans ?_
          refine hSF (fun A => rowMod A m fun _ => 0) _ ?_
          intro A B h m' hm2 z' hz'
          simp only [rowMod]
          split
          · rfl
          · exact h m' hm2 z' hz'
      · simp [hm]
    · funext m
      by_cases hm : m ∈ o.I p
      · simp only [if_pos hm, (hs m hm).2.1, zero_add]
        refine (sum_exists (fun m z => max (L m z) eps) pd pe hok.pp (o.I p).toFinset (o.J p).toFinset m (List.mem_toFinset.2 hm)).trans ?_
        exact hSF (fun A => A) _ (fun A B h => h)
      · simp [hm]
  -- the updated tracks
  obtain ⟨s', h1, h2, h3, h4, h5⟩ := track_fold (o.J p) B.lik hlikpos.ne' (o.I p) { s with mw := B.mw, upd := B.upd } hnd.1 (by
    intro r hr
    obtain ⟨hs1, hs2, hs3, hs4⟩ := hs r hr
    simp only [hs3, hs4]
    refine ⟨hok.mixn r, hok.mmn r, ?_⟩
    rw [wsum_built]
    obtain ⟨z, hzJ, hzL⟩ := hrow r hr
    have hseen : ∀ c, 0 ≤ B.mw r (some c) := by
      intro c
      simp only [hB, if_pos hr]
      refine S_nonneg _ _ _ _ _ (fun m z => ?_) (fun m => ?_) (fun _ => zero_le_one)
      · unfold rowMod
        split
        · beta_reduce; split
          · exact hF0 _ _
          · exact le_refl _
        · exact hF0 _ _
      · by_cases h : m = r
        · subst h; simp
        · rw [Function.update_of_ne h]; exact (hm0 m).le
    have hz1 : 0 < B.mw r (some z) := by
      simp only [hB, if_pos hr]
      refine S_pos _ _ _ _ _ (fun m z' => ?_) (fun m => ?_) (fun _ => one_pos) (fun m => if m = r then some z else none) (mem_Match.2 ⟨?_, ?_, ?_⟩) ?_
      · unfold rowMod
        split
        · beta_reduce; split
          · exact hF0 _ _
          · exact le_refl _
        · exact hF0 _ _
      · by_cases h : m = r
        · subst h; simp
        · rw [Function.update_of_ne h]; exact (hm0 m).le
      · intro m hm; rw [if_neg]; rintro rfl; exact hm (List.mem_toFinset.2 hr)
      · intro m z' hm
        split at hm
        · cases hm; exact List.mem_toFinset.2 hzJ
        · cases hm
      · intro m m' z' h h'
        beta_reduce at h h'
        split at h
        · split at h'
          · rename_i a b; rw [a, b]
          · cases h'
        · cases h
      · intro m _
        unfold rowW
        by_cases h : m = r
        · subst h; simp only [if_true, rowMod]; rw [hF m hr z hzJ]; exact lt_max_of_lt_right heps
        · simp only [if_neg h]; rw [Function.update_of_ne h]; exact hm0 m
    have hnone : 0 ≤ B.mw r none := by
      simp only [hB, if_pos hr]
      refine S_nonneg _ _ _ _ _ (fun m z => ?_) (missEx_nonneg pd pe hok.pd1 hok.pe0 hok.pp r) (fun _ => zero_le_one)
      unfold rowMod
      split
      · exact le_refl _
      · exact hF0 _ _
    have hsum : 0 < ((o.J p).map fun c => wsum (mm r c).g * B.mw r (some c)).sum := by
      have hmem : wsum (mm r z).g * B.mw r (some z) ∈ (o.J p).map fun c => wsum (mm r c).g * B.mw r (some c) := List.mem_map.2 ⟨z, hzJ, rfl⟩
      refine lt_of_lt_of_le (mul_pos (hok.mmL r z hzL) hz1) (List.single_le_sum ?_ _ hmem)
      intro x hx
      obtain ⟨c, -, rfl⟩ := List.mem_map.1 hx
      exact mul_nonneg (hok.mm0 r c) (hseen c)
    have := mul_nonneg (hok.mix0 r) hnone
    linarith)
  refine ⟨{ s' with l := s'.l * B.lik }, ?_, ?_, ?_, ?_⟩
  · unfold partStep
    have hu : (if (getPartitionSize o p).2.1 + (getPartitionSize o p).2.2 ≤ 8 ∨ (getPartitionSize o p).1 = false then false else true) = false :=
      if_pos (Or.inl h8)
    simp only [hu, hflag]
    have hc : ¬ (true = false ∨ (getPartition L o p false).1.cols.length = 0) := by
      show ¬ (true = false ∨ (o.J p).length = 0)
      simp; exact hJ0
    rw [if_neg hc]
    simp only [Bool.false_eq_true, if_false]
    show (lexTab (fun t q => assign pd pe (o.I p) (o.J p) t q (ex (permTerm L pd pe (o.I p) (o.J p) q))) fuel
      (PermLex.init (o.I p).length (o.J p).length true) ⟨0, s.mw, s.upd⟩).bind _ = _
    rw [htab]
    show Option.map _ ((o.I p).foldlM (trackStep (o.J p) B.lik) { s with mw := B.mw, upd := B.upd }) = _
    rw [h1]
    rfl
  · intro m hm
    obtain ⟨e1, e2, e3, e4⟩ := h4 m hm
    refine ⟨e1, ?_, e2.trans ?_, e3, e4⟩
    · show s'.mw m = _
      rw [h2]
      funext k
      simp [hB, hm]
    · simp [hB, hm]
  · show s'.l * B.lik = _
    rw [h3]
  · have hmw : ∀ m ∈ o.I p, s'.mw m = B.mw m := fun m _ => by rw [h2]
    constructor
    · intro m hm
      rw [(h5 m hm).1]
      simp [hB, hm]
    · intro m hm z
      show s'.mw m (some z) = _
      rw [hmw m hm]
      simp [hB, hm]
    · intro h; exact absurd h hz
    · intro _ m hm
      show s'.mw m none = _
      rw [hmw m hm]
      simp [hB, hm]
    · intro _ m hm
      obtain ⟨-, e2, e3⟩ := h5 m hm
      obtain ⟨-, -, hs3, hs4⟩ := hs m hm
      refine ⟨?_, e3⟩
      rw [e2]
      simp only [hs3, hs4]
      show _ = normed (built (mix m) (mm m) (s'.mw m) (o.J p))
      rw [h2]

/-- The whole loop. -/
theorem update_eq (L : Fin n → Fin nZ → ℝ) (pd pe : Fin n → ℝ) (mix : Fin n → GMix ℝ d) (mm : Fin n → Fin nZ → GMix ℝ d) (hok : Ok L pd pe mix mm)
    (murty : List (Fin n) → List (Fin nZ) → List (List Nat × ℝ)) (fuel ncc : Nat) (lab : Fin n ⊕ Fin nZ → Nat) (hcomp : IsComponents L 0 ncc lab)
    (hsmall : Small L) (hf : 2 ^ 32 ≤ fuel) : ∃ o s, partition ncc lab none = some o ∧ update L pd pe mix mm murty fuel ncc lab = some s ∧
      s.l = ∏ p ∈ Finset.range o.nP, S (floored L) (miss0 pd pe) (fun _ => 1) (o.I p).toFinset (o.J p).toFinset ∧
      ∀ p < o.nP, BlockSpec L (floored L) pd pe mix mm o p s := by
  classical
  obtain ⟨o, ho, hI, hJ, hnd, hzero, hlink, hsame, -, -⟩ := blocks L ncc lab hcomp
  have hF0 : ∀ m z, 0 ≤ floored L m z := by
    intro m z
    unfold floored
    split
    · exact le_max_of_le_left (hok.L0 m z)
    · exact le_refl _
  have key : ∀ k ≤ o.nP, ∃ s, (List.range k).foldlM (partStep L pd pe murty fuel o) (⟨pe, mix, mm, fun _ _ => 0, fun _ => 0, 1⟩ : St d n nZ) = some s ∧
      s.l = ∏ p ∈ Finset.range k, S (floored L) (miss0 pd pe) (fun _ => 1) (o.I p).toFinset (o.J p).toFinset ∧
      (∀ p < k, BlockSpec L (floored L) pd pe mix mm o p s) ∧
      ∀ p, k ≤ p → p < o.nP → ∀ m ∈ o.I p, (∀ x, s.mw m x = 0) ∧ s.upd m = 0 ∧ s.mix m = mix m ∧ s.mm m = mm m := by
    intro k
    induction k with
    | zero => intro _; exact ⟨_, rfl, by simp, fun p hp => by omega, fun p _ _ m _ => ⟨fun _ => rfl, rfl, rfl, rfl⟩⟩
    | succ k ih =>
      intro hk
      obtain ⟨s, h1, h2, h3, h4⟩ := ih (by omega)
      have hstep : ∃ s', partStep L pd pe murty fuel o s k = some s' ∧
          (∀ m, m ∉ o.I k → s'.P m = s.P m ∧ s'.mw m = s.mw m ∧ s'.upd m = s.upd m ∧ s'.mix m = s.mix m ∧ s'.mm m = s.mm m) ∧
          s'.l = s.l * S (floored L) (miss0 pd pe) (fun _ => 1) (o.I k).toFinset (o.J k).toFinset ∧ BlockSpec L (floored L) pd pe mix mm o k s' := by
        by_cases hz : o.zero = some k
        · refine partStep_zero L (floored L) pd pe mix mm hok murty fuel o k hz (hnd k (by omega)).1 ?_ s (h4 k le_rfl (by omega))
          intro m hm z
          unfold floored
          rw [if_neg]
          intro h
          exact not_empty_of_linked L m z h (((hzero k (by omega) hz).1 m).1 hm)
        · obtain ⟨hr0, hc0, hrc⟩ := hlink k (by omega) hz
          refine partStep_block L (floored L) pd pe mix mm hok murty fuel hf o k hz (hnd k (by omega)) hc0 ?_ ?_ hF0 ?_ s (h4 k le_rfl (by omega))
          · have := hsmall (o.I k).toFinset (o.J k).toFinset (List.toFinset_nonempty_iff _ |>.2 hr0) (List.toFinset_nonempty_iff _ |>.2 hc0)
              (fun i hi j hj => hrc i (List.mem_toFinset.1 hi) j (List.mem_toFinset.1 hj))
            rwa [List.toFinset_card_of_nodup (hnd k (by omega)).1, List.toFinset_card_of_nodup (hnd k (by omega)).2] at this
          · intro m hm z hz
            unfold floored
            rw [if_pos (hrc m hm z hz)]
            rfl
          · intro m hm
            obtain ⟨j, hj⟩ := List.exists_mem_of_ne_nil _ hc0
            have hne := not_empty_of_linked L m j (hrc m hm j hj)
            unfold EmptyRow at hne
            push Not at hne
            obtain ⟨z, hz⟩ := hne
            exact ⟨z, hsame m z (.col m z _ hz (.refl _)) k (by omega) hm, hz⟩
      obtain ⟨s', g1, g2, g3, g4⟩ := hstep
      have hdis : ∀ p < o.nP, p ≠ k → ∀ m ∈ o.I p, m ∉ o.I k := by
        intro p hp hpk m hm hm'
        obtain ⟨r, -, hu⟩ := hI m
        exact hpk ((hu p ⟨hp, hm⟩).trans (hu k ⟨by omega, hm'⟩).symm)
      refine ⟨s', ?_, ?_, ?_, ?_⟩
      · rw [List.range_succ, List.foldlM_append, h1]
        show List.foldlM (partStep L pd pe murty fuel o) s [k] = _
        simp [g1]
      · rw [g3, h2, Finset.prod_range_succ]
      · intro p hp
        by_cases hpk : p = k
        · subst hpk; exact g4
        · have hb := h3 p (by omega)
          have hd := hdis p (by omega) hpk
          refine ⟨fun m hm => ?_, fun m hm z => ?_, fun hz m hm => ?_, fun hz m hm => ?_, fun hz m hm => ?_⟩
          · rw [(g2 m (hd m hm)).1]; exact hb.P m hm
          · rw [(g2 m (hd m hm)).2.1]; exact hb.seen m hm z
          · rw [(g2 m (hd m hm)).2.2.2.1]; exact hb.mixZero hz m hm
          · rw [(g2 m (hd m hm)).2.1]; exact hb.missed hz m hm
          · rw [(g2 m (hd m hm)).2.1, (g2 m (hd m hm)).2.2.2.1]; exact hb.mix hz m hm
      · intro p hkp hp m hm
        have hd := hdis p hp (by omega) m hm
        obtain ⟨a, b, c, e⟩ := h4 p (by omega) hp m hm
        obtain ⟨-, x1, x2, x3, x4⟩ := g2 m hd
        exact ⟨fun k => by rw [x1]; exact a k, x2.trans b, x3.trans c, x4.trans e⟩
  obtain ⟨s, h1, h2, h3, -⟩ := key o.nP le_rfl
  refine ⟨o, s, ho, ?_, h2, h3⟩
  unfold update
  rw [ho, Option.bind_some]
  exact h1

end LMB
end RFS
