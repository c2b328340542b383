import Verif.Lemmas.LMBEvents

/-!
The LMB map update in terms of posterior probabilities.
-/

namespace RFS
namespace LMBProps
open GM GMB CBM Partition RFSLik Assoc PartitionProps RFSLikProps LMB

variable {d n nZ : Nat}

theorem S_row_zero (F : Fin n → Fin nZ → ℝ) (miss : Fin n → ℝ) (c : Fin nZ → ℝ) (R : Finset (Fin n)) (C : Finset (Fin nZ)) (m : Fin n) (hm : m ∈ R)
    (hF : ∀ z ∈ C, F m z = 0) (h0 : miss m = 0) : S F miss c R C = 0 := by
  refine Finset.sum_eq_zero fun f hf => ?_
  rw [mem_Match] at hf
  rw [Finset.prod_eq_zero hm, zero_mul]
  unfold rowW
  cases hfm : f m with
  | none => exact h0
  | some z => exact hF z (hf.2.1 m z hfm)

/-- Result of the update in terms of posterior probabilities. -/
theorem outcome (L : Fin n → Fin nZ → ℝ) (pd pe : Fin n → ℝ) (mix : Fin n → GMix ℝ d) (mm : Fin n → Fin nZ → GMix ℝ d) (hok : Ok L pd pe mix mm)
    (murty : List (Fin n) → List (Fin nZ) → List (List Nat × ℝ)) (fuel ncc : Nat) (lab : Fin n ⊕ Fin nZ → Nat) (hcomp : IsComponents L 0 ncc lab)
    (hsmall : Small L) (hf : 2 ^ 32 ≤ fuel) : ∃ s, update L pd pe mix mm murty fuel ncc lab = some s ∧
      s.l = mass (floored L) pd pe (fun _ => True) ∧ 0 < s.l ∧
      (∀ m, s.P m = post (floored L) pd pe fun h => h m ≠ none) ∧
      (∀ z, assocP s z = post (floored L) pd pe (fun h => ∃ m, h m = some (some z)) * blockLik L pd pe z) ∧
      (∀ m, EmptyRow L 0 m → s.mix m = mix m) ∧
      ∀ m, ¬ EmptyRow L 0 m → ∃ (cs : List (Fin nZ)) (B : ℝ), cs.Nodup ∧ (∀ z, z ∈ cs ↔ Linked L 0 (.inl m) (.inr z)) ∧ 0 < B ∧
        (s.mix m).g = normed (built (mix m) (mm m) (fun k => post (floored L) pd pe (fun h => h m = some k) * B) cs) ∧ (s.mix m).n = (s.mix m).g.length := by
  classical
  obtain ⟨o, s, ho, hs, hl, hb⟩ := update_eq L pd pe mix mm hok murty fuel ncc lab hcomp hsmall hf
  obtain ⟨o', ho', hI, hJ, hnd, hzero, hlink, hsame, hJJ, hsameJ⟩ := blocks L ncc lab hcomp
  rw [ho] at ho'
  cases ho'
  have hm0 : ∀ m, 0 < miss0 pd pe m := fun m => sub_pos.2 (hok.pp m)
  have hF0 : ∀ m z, 0 ≤ floored L m z := by
    intro m z
    unfold floored
    split
    · exact le_max_of_le_left (hok.L0 m z)
    · exact le_refl _
  have hcross : ∀ p < o.nP, ∀ m ∈ o.I p, ∀ z, z ∉ o.J p → floored L m z = 0 := by
    intro p hp m hm z hz
    unfold floored
    rw [if_neg]
    exact fun h => hz (hsame m z h p hp hm)
  have hSpos : ∀ p, 0 < S (floored L) (miss0 pd pe) (fun _ => 1) (o.I p).toFinset (o.J p).toFinset := by
    intro p
    refine S_pos _ _ _ _ _ hF0 (fun m => (hm0 m).le) (fun _ => one_pos) (fun _ => none) (mem_Match.2 ⟨fun _ _ => rfl, fun _ _ h => by simp at h, fun _ _ _ h => by simp at h⟩) ?_
    intro m _; exact hm0 m
  have hS : ∀ p < o.nP, S (floored L) (miss0 pd pe) (fun _ => 1) (o.I p).toFinset (o.J p).toFinset ≠ 0 := fun p _ => (hSpos p).ne'
  have hrowmod : ∀ m (g : Fin nZ → ℝ), (∀ z, floored L m z = 0 → g z = 0) →
      ∀ p < o.nP, ∀ m' ∈ o.I p, ∀ z, z ∉ o.J p → rowMod (floored L) m g m' z = 0 := by
    intro m g hg p hp m' hm' z hz
    unfold rowMod
    split
    · rename_i e; exact hg z (by rw [← e]; exact hcross p hp m' hm' z hz)
    · exact hcross p hp m' hm' z hz
  have hmod : ∀ m p, m ∈ o.I p → ∀ (g : Fin nZ → ℝ) (x : ℝ), ∀ m', m' ∉ o.I p → rowMod (floored L) m g m' = floored L m' ∧
      Function.update (miss0 pd pe) m x m' = miss0 pd pe m' := by
    intro m p hm g x m' hm'
    have : m' ≠ m := fun e => hm' (e ▸ hm)
    exact ⟨by unfold rowMod; simp [this], Function.update_of_ne this _ _⟩
  have htot : total (floored L) (miss0 pd pe) (fun _ => 1) = ∏ q ∈ Finset.range o.nP, S (floored L) (miss0 pd pe) (fun _ => 1) (o.I q).toFinset (o.J q).toFinset := by
    by_cases h0 : o.nP = 0
    · -- no tracks, no measurements
      have hn : IsEmpty (Fin n) := ⟨fun i => by obtain ⟨p, ⟨hp, -⟩, -⟩ := hI i; omega⟩
      have hz : IsEmpty (Fin nZ) := ⟨fun i => by obtain ⟨p, ⟨hp, -⟩, -⟩ := hJ i; omega⟩
      rw [h0, Finset.range_zero, Finset.prod_empty, ← S_univ, Finset.univ_eq_empty, Finset.univ_eq_empty, S_empty]
    · exact (ratio o hI hJ (floored L) (floored L) (miss0 pd pe) (miss0 pd pe) (fun _ => 1) (fun _ => 1) hcross hcross hS 0 (by omega)
        (fun _ _ => ⟨rfl, rfl⟩) (fun _ _ => rfl)).2
  have hSeen : ∀ p < o.nP, ∀ m ∈ o.I p, ∀ z, S (rowMod (floored L) m fun z' => if z' = z then floored L m z else 0) (Function.update (miss0 pd pe) m 0) (fun _ => 1)
      (o.I p).toFinset (o.J p).toFinset = post (floored L) pd pe (fun h => h m = some (some z)) * S (floored L) (miss0 pd pe) (fun _ => 1) (o.I p).toFinset (o.J p).toFinset := by
    intro p hp m hm z
    unfold post
    rw [mass_seen, mass_true, (ratio o hI hJ (floored L) _ (miss0 pd pe) _ (fun _ => 1) (fun _ => 1) hcross (hrowmod m _ ?_) hS p hp
      (hmod m p hm _ 0) (fun _ _ => rfl)).1, div_mul_cancel₀ _ (hS p hp)]
    intro z' hz'
    split
    · rename_i e; rw [← e]; exact hz'
    · rfl
  have hMissed : ∀ p < o.nP, ∀ m ∈ o.I p, S (rowMod (floored L) m fun _ => 0) (missEx pd pe m) (fun _ => 1)
      (o.I p).toFinset (o.J p).toFinset = post (floored L) pd pe (fun h => h m = some none) * S (floored L) (miss0 pd pe) (fun _ => 1) (o.I p).toFinset (o.J p).toFinset := by
    intro p hp m hm
    unfold post
    rw [mass_missed, mass_true, (ratio o hI hJ (floored L) (rowMod (floored L) m fun _ => 0) (miss0 pd pe) (missEx pd pe m) (fun _ => 1) (fun _ => 1) hcross
      (hrowmod m _ (fun _ _ => rfl)) hS p hp (hmod m p hm _ _) (fun _ _ => rfl)).1, div_mul_cancel₀ _ (hS p hp)]
  refine ⟨s, hs, ?_, ?_, ?_, ?_, ?_, ?_⟩
  · rw [hl, mass_true, htot]
  · rw [hl]; exact Finset.prod_pos fun p _ => hSpos p
  · intro m
    obtain ⟨p, ⟨hp, hm⟩, -⟩ := hI m
    rw [(hb p hp).P m hm]
    unfold post
    rw [mass_exists, mass_true, (ratio o hI hJ (floored L) (floored L) (miss0 pd pe) (missEx pd pe m) (fun _ => 1) (fun _ => 1) hcross hcross hS p hp
      (fun m' hm' => ⟨rfl, ((hmod m p hm (fun _ => 0) _) m' hm').2⟩) (fun _ _ => rfl)).1]
  · intro z
    obtain ⟨p, ⟨hp, hz⟩, hu⟩ := hJ z
    have hcol := (ratio o hI hJ (floored L) (floored L) (miss0 pd pe) (miss0 pd pe) (fun _ => 1) (Function.update (fun _ => 1) z 0) hcross hcross hS p hp
      (fun _ _ => ⟨rfl, rfl⟩) (fun z' hz' => Function.update_of_ne (fun e : z' = z => hz' (e ▸ hz)) _ _)).1
    have hsum : assocP s z = S (floored L) (miss0 pd pe) (Function.update (fun _ => 1) z 0) (o.I p).toFinset (o.J p).toFinset := by
      rw [← sum_col (floored L) (o.I p).toFinset (o.J p).toFinset z (List.mem_toFinset.2 hz) (miss0 pd pe)]
      unfold assocP
      rw [← Finset.sum_subset (Finset.subset_univ (o.I p).toFinset)]
      · refine Finset.sum_congr rfl fun m hm => ?_
        rw [(hb p hp).seen m (List.mem_toFinset.1 hm) z, ← sum_seen (floored L) pd pe _ _ m hm z]
        rfl
      · intro m _ hm
        obtain ⟨q, ⟨hq, hmq⟩, -⟩ := hI m
        have hqp : q ≠ p := fun e => hm (List.mem_toFinset.2 (e ▸ hmq))
        rw [(hb q hq).seen m hmq z]
        refine S_row_zero _ _ _ _ _ m (List.mem_toFinset.2 hmq) (fun z' hz' => ?_) (by simp)
        unfold rowMod
        rw [if_pos rfl]
        refine if_neg ?_
        rintro rfl
        exact hqp ((hu q ⟨hq, List.mem_toFinset.1 hz'⟩))
    have hpost : post (floored L) pd pe (fun h => ∃ m, h m = some (some z)) * S (floored L) (miss0 pd pe) (fun _ => 1) (o.I p).toFinset (o.J p).toFinset =
        assocP s z := by
      unfold post
      rw [mass_col, mass_true, hcol, div_mul_cancel₀ _ (hS p hp), hsum]
    by_cases hz0 : o.zero = some p
    · have h0 : assocP s z = 0 := by
        rw [hsum, S_zero, Finset.prod_eq_zero (List.mem_toFinset.2 hz) (by simp), mul_zero]
        intro m hm z' _
        unfold floored
        rw [if_neg]
        exact fun h => not_empty_of_linked L m z' h (((hzero p hp hz0).1 m).1 (List.mem_toFinset.1 hm))
      rw [h0] at hpost ⊢
      rcases mul_eq_zero.1 hpost with h | h
      · rw [h, zero_mul]
      · exact absurd h (hS p hp)
    · have e1 : (Finset.univ.filter fun m => Linked L 0 (.inl m) (.inr z)) = (o.I p).toFinset := by
        ext m
        simp only [Finset.mem_filter, Finset.mem_univ, true_and, List.mem_toFinset]
        constructor
        · intro h
          obtain ⟨q, ⟨hq, hmq⟩, -⟩ := hI m
          have := hu q ⟨hq, hsame m z h q hq hmq⟩
          exact this ▸ hmq
        · intro h; exact (hlink p hp hz0).2.2 m h z hz
      have e2 : (Finset.univ.filter fun z' => Linked L 0 (.inr z) (.inr z')) = (o.J p).toFinset := by
        ext z'
        simp only [Finset.mem_filter, Finset.mem_univ, true_and, List.mem_toFinset]
        exact ⟨fun h => hsameJ z z' h p hp hz, fun h => hJJ p hp hz0 z hz z' h⟩
      rw [← hpost]
      unfold blockLik
      rw [← e1, ← e2]
      rfl
  · intro m he
    obtain ⟨p, ⟨hp, hm⟩, -⟩ := hI m
    by_cases hz : o.zero = some p
    · exact (hb p hp).mixZero hz m hm
    · obtain ⟨-, hc0, hrc⟩ := hlink p hp hz
      obtain ⟨j, hj⟩ := List.exists_mem_of_ne_nil _ hc0
      exact absurd he (not_empty_of_linked L m j (hrc m hm j hj))
  · intro m he
    obtain ⟨p, ⟨hp, hm⟩, -⟩ := hI m
    have hz : o.zero ≠ some p := fun h => he (((hzero p hp h).1 m).1 hm)
    obtain ⟨h1, h2⟩ := (hb p hp).mix hz m hm
    refine ⟨o.J p, S (floored L) (miss0 pd pe) (fun _ => 1) (o.I p).toFinset (o.J p).toFinset, (hnd p hp).2, fun z => ⟨fun h => (hlink p hp hz).2.2 m hm z h,
      fun h => hsame m z h p hp hm⟩, hSpos p, ?_, h2⟩
    have : s.mw m = fun k => post (floored L) pd pe (fun h => h m = some k) * S (floored L) (miss0 pd pe) (fun _ => 1) (o.I p).toFinset (o.J p).toFinset := by
      funext k
      cases k with
      | none => rw [(hb p hp).missed hz m hm, hMissed p hp m hm]
      | some z => rw [(hb p hp).seen m hm z, hSeen p hp m hm z]
    rw [h1, this]

end LMBProps
end RFS
