import Verif.Lemmas.RFSLikelihood
import Verif.Lemmas.RFSBlock
import Mathlib.Tactic.Positivity
import Mathlib.Algebra.Order.BigOperators.Ring.Finset

/-!
Property C42: the RFS measurement likelihood of the RB-PHD filter.

Specification: `Assoc.total L miss clut`, the sum over all one-to-one partial associations of landmarks with measurements of the product of
table entries, missed detection terms and clutter terms.
-/

namespace RFS
namespace RFSLikProps
open RFSLik Partition PartitionProps Assoc

variable {nM nZ : Nat}

theorem prodLik_eq (f : Nat → Option ℝ) (g : Nat → ℝ) (n : Nat) (h : ∀ p < n, f p = some (g p)) : prodLik f n = some (∏ p ∈ Finset.range n, g p) := by
  induction n with
  | zero => simp [prodLik]
  | succ n ih =>
    unfold prodLik
    rw [ih (fun p hp => h p (by omega)), h n (by omega), Finset.prod_range_succ]
    rfl

theorem not_empty_of_linked (L : Fin nM → Fin nZ → ℝ) (i : Fin nM) (j : Fin nZ) (h : Linked L 0 (.inl i) (.inr j)) : ¬ EmptyRow L 0 i := by
  intro he
  cases h with
  | col _ j' _ h _ => exact absurd h (not_lt.2 (he j'))

open Classical in
/-- The table the code works with: entries of pairs in the same partition are raised to `e^-1000`. -/
noncomputable def floored (L : Fin nM → Fin nZ → ℝ) (m : Fin nM) (z : Fin nZ) : ℝ :=
  if Linked L 0 (.inl m) (.inr z) then max (L m z) (Real.exp (-1000)) else 0

open Classical in
/-- The missed detection terms the code works with: the probability of detection, not its complement, for a landmark without any
measurement in reach. -/
noncomputable def missed (L : Fin nM → Fin nZ → ℝ) (pd : Fin nM → ℝ) (m : Fin nM) : ℝ := if EmptyRow L 0 m then pd m else 1 - pd m

/-- No partition is so large that Murty's algorithm is used: every set of linked landmarks and measurements has at most 8 members. -/
def Small (L : Fin nM → Fin nZ → ℝ) : Prop :=
  ∀ (R : Finset (Fin nM)) (C : Finset (Fin nZ)), R.Nonempty → C.Nonempty → (∀ i ∈ R, ∀ j ∈ C, Linked L 0 (.inl i) (.inr j)) → R.card + C.card ≤ 8

/-- The partitions and what the code computes for each. -/
theorem blocks (L : Fin nM → Fin nZ → ℝ) (pd : Fin nM → ℝ) (clut : Fin nZ → ℝ)
    (murty : List (Fin nM) → List (Fin nZ) → Option ℝ) (fuel ncc : Nat) (lab : Fin nM ⊕ Fin nZ → Nat) (hcomp : IsComponents L 0 ncc lab)
    (hL : ∀ m z, 0 ≤ L m z) (hpd : ∀ m, pd m ≤ 1) (hcl : ∀ z, 0 ≤ clut z) (hf : 2 ^ 32 ≤ fuel) :
    ∃ o, partition ncc lab none = some o ∧
      total (floored L) (missed L pd) clut = ∏ p ∈ Finset.range o.nP, S (floored L) (missed L pd) clut (o.I p).toFinset (o.J p).toFinset ∧
      ∀ p < o.nP, (o.I p).Nodup ∧ (o.J p).Nodup ∧
        (partLik L pd clut murty fuel o p = some (S (floored L) (missed L pd) clut (o.I p).toFinset (o.J p).toFinset) ∨
          (o.I p ≠ [] ∧ o.J p ≠ [] ∧ (∀ i ∈ o.I p, ∀ j ∈ o.J p, Linked L 0 (.inl i) (.inr j)) ∧ 8 < (o.I p).length + (o.J p).length ∧
            partLik L pd clut murty fuel o p = murty (o.I p) (o.J p))) := by
  classical
  obtain ⟨o, ho, hI, hJ, hnd, hcross⟩ := C11_block_decomposition hcomp
  obtain ⟨o', ho', hz, -, -, hlink, hget⟩ := C12_zero_partition hcomp
  rw [ho] at ho'
  cases ho'
  -- linked rows and columns are in the same partition
  have hsame : ∀ u v, Linked L 0 u v → ∀ p < o.nP, (match u with | .inl i => i ∈ o.I p | .inr j => j ∈ o.J p) →
      (match v with | .inl i => i ∈ o.I p | .inr j => j ∈ o.J p) := by
    intro u v h
    induction h with
    | refl v => exact fun p _ h => h
    | col i j v hij _ ih =>
      intro p hp hi
      obtain ⟨q, ⟨hq, hjq⟩, -⟩ := hJ j
      by_cases hpq : p = q
      · subst hpq; exact ih p hp hjq
      · exact absurd hij (not_lt.2 (hcross p hp q hq hpq i hi j hjq))
    | row i j v hij _ ih =>
      intro p hp hj
      obtain ⟨q, ⟨hq, hiq⟩, -⟩ := hI i
      by_cases hpq : q = p
      · subst hpq; exact ih q hp hiq
      · exact absurd hij (not_lt.2 (hcross q hq p hp hpq i hiq j hj))
  refine ⟨o, ho, ?_, fun p hp => ⟨(hnd p hp).1, (hnd p hp).2, ?_⟩⟩
  rotate_left
  · unfold partLik
    simp only
    by_cases hzero : o.zero = some p
    · -- nothing in reach
      left
      have hflag : (getPartition L o p false).1.flag = false := by simp [getPartition, hzero]
      have hzp := hz p hp hflag
      have hu : (if (getPartitionSize o p).2.1 + (getPartitionSize o p).2.2 ≤ 8 ∨ (getPartitionSize o p).1 = false then false else true) = false := by
        rw [if_pos (Or.inr (by simp [getPartitionSize, hzero]))]
      rw [hu, if_pos hflag, S_zero]
      · show some (((o.I p).map pd).prod * ((o.J p).map clut).prod) = _
        rw [List.prod_toFinset _ (hnd p hp).1, List.prod_toFinset _ (hnd p hp).2]
        congr 3
        refine List.map_congr_left fun m hm => ?_
        unfold missed
        rw [if_pos ((hzp.1 m).1 hm)]
      · intro m hm z _
        unfold floored
        rw [if_neg]
        intro h
        exact not_empty_of_linked L m z h ((hzp.1 m).1 (List.mem_toFinset.1 hm))
    · have hflag : ∀ e, (getPartition L o p e).1.flag = true := fun e => by simp [getPartition, hzero]
      obtain ⟨hr0, hc0, -, hrc, -⟩ := hlink p hp (hflag false)
      change o.I p ≠ [] at hr0
      change o.J p ≠ [] at hc0
      change ∀ i ∈ o.I p, ∀ j ∈ o.J p, Linked L 0 (.inl i) (.inr j) at hrc
      by_cases h8 : (o.I p).length + (o.J p).length ≤ 8
      swap
      · right
        refine ⟨hr0, hc0, hrc, not_le.1 h8, ?_⟩
        have hu : (if (getPartitionSize o p).2.1 + (getPartitionSize o p).2.2 ≤ 8 ∨ (getPartitionSize o p).1 = false then false else true) = true :=
          if_neg (by rintro (h | h); exact h8 h; simp [getPartitionSize, hzero] at h)
        rw [hu, if_neg (by rw [hflag]; simp), if_pos rfl]
        rfl
      left
      have hu : (if (getPartitionSize o p).2.1 + (getPartitionSize o p).2.2 ≤ 8 ∨ (getPartitionSize o p).1 = false then false else true) = false :=
        if_pos (Or.inl h8)
      rw [hu, if_neg (by rw [hflag]; simp), if_neg (by simp)]
      show lexLoop (fun l => ex (permTerm L pd clut (o.I p) (o.J p) l)) fuel (PermLex.init (o.I p).length (o.J p).length true) 0 = _
      rw [lexLoop_block L pd clut hL hpd hcl (o.I p) (o.J p) (hnd p hp).1 (hnd p hp).2 h8
        (by have := List.length_pos_of_ne_nil hr0; omega) fuel hf]
      congr 1
      refine S_congr _ _ _ _ _ _ _ _ ?_ ?_ (fun _ _ => rfl)
      · intro m hm z hz
        unfold floored
        rw [if_pos (hrc m (List.mem_toFinset.1 hm) z (List.mem_toFinset.1 hz))]
        rfl
      · intro m hm
        unfold missed
        obtain ⟨j, hj⟩ := List.exists_mem_of_ne_nil _ hc0
        rw [if_neg (not_empty_of_linked L m j (hrc m (List.mem_toFinset.1 hm) j hj))]
  rw [← S_blocks (floored L) (missed L pd) clut (fun p => (o.I p).toFinset) (fun p => (o.J p).toFinset) o.nP, ← S_univ]
  · have e1 : (Finset.range o.nP).biUnion (fun p => (o.I p).toFinset) = Finset.univ := by
      ext i
      simp only [Finset.mem_biUnion, Finset.mem_range, List.mem_toFinset, Finset.mem_univ, iff_true]
      obtain ⟨p, h, -⟩ := hI i
      exact ⟨p, h⟩
    have e2 : (Finset.range o.nP).biUnion (fun p => (o.J p).toFinset) = Finset.univ := by
      ext j
      simp only [Finset.mem_biUnion, Finset.mem_range, List.mem_toFinset, Finset.mem_univ, iff_true]
      obtain ⟨p, h, -⟩ := hJ j
      exact ⟨p, h⟩
    rw [e1, e2]
  · intro p hp q hq hpq
    rw [Finset.disjoint_left]
    intro i h1 h2
    obtain ⟨r, -, hu⟩ := hI i
    exact hpq ((hu p ⟨hp, List.mem_toFinset.1 h1⟩).trans (hu q ⟨hq, List.mem_toFinset.1 h2⟩).symm)
  · intro p hp q hq hpq
    rw [Finset.disjoint_left]
    intro i h1 h2
    obtain ⟨r, -, hu⟩ := hJ i
    exact hpq ((hu p ⟨hp, List.mem_toFinset.1 h1⟩).trans (hu q ⟨hq, List.mem_toFinset.1 h2⟩).symm)
  · intro p hp q hq hpq m hm z hz
    unfold floored
    rw [if_neg]
    intro h
    have h1 := hsame _ _ h p hp (List.mem_toFinset.1 hm)
    obtain ⟨r, -, hu⟩ := hJ z
    exact hpq ((hu p ⟨hp, h1⟩).trans (hu q ⟨hq, List.mem_toFinset.1 hz⟩).symm)

/-- What the code computes, exactly, when no partition needs Murty's algorithm. -/
theorem C42_value_partial (L : Fin nM → Fin nZ → ℝ) (pd : Fin nM → ℝ) (clut : Fin nZ → ℝ) (integral : ℝ)
    (murty : List (Fin nM) → List (Fin nZ) → Option ℝ) (fuel ncc : Nat) (lab : Fin nM ⊕ Fin nZ → Nat) (hcomp : IsComponents L 0 ncc lab)
    (hL : ∀ m z, 0 ≤ L m z) (hpd : ∀ m, pd m ≤ 1) (hcl : ∀ z, 0 ≤ clut z) (hsmall : Small L) (hf : 2 ^ 32 ≤ fuel) :
    rfsLik L pd clut integral murty fuel ncc lab = some (total (floored L) (missed L pd) clut / integral) := by
  obtain ⟨o, ho, htot, hb⟩ := blocks L pd clut murty fuel ncc lab hcomp hL hpd hcl hf
  have hpart : ∀ p < o.nP, partLik L pd clut murty fuel o p = some (S (floored L) (missed L pd) clut (o.I p).toFinset (o.J p).toFinset) := by
    intro p hp
    obtain ⟨h1, h2, h3 | ⟨hr0, hc0, hrc, h8, -⟩⟩ := hb p hp
    · exact h3
    · have := hsmall (o.I p).toFinset (o.J p).toFinset (List.toFinset_nonempty_iff _ |>.2 hr0) (List.toFinset_nonempty_iff _ |>.2 hc0)
        (fun i hi j hj => hrc i (List.mem_toFinset.1 hi) j (List.mem_toFinset.1 hj))
      rw [List.toFinset_card_of_nodup h1, List.toFinset_card_of_nodup h2] at this
      omega
  unfold rfsLik
  rw [ho, Option.bind_some, prodLik_eq _ _ _ hpart, Option.map_some, htot]

theorem total_mono (L L' : Fin nM → Fin nZ → ℝ) (miss : Fin nM → ℝ) (clut : Fin nZ → ℝ) (hL : ∀ m z, 0 ≤ L m z) (hLL : ∀ m z, L m z ≤ L' m z)
    (hm : ∀ m, 0 ≤ miss m) (hcl : ∀ z, 0 ≤ clut z) : total L miss clut ≤ total L' miss clut := by
  classical
  unfold total
  refine Finset.sum_le_sum fun f _ => mul_le_mul_of_nonneg_right (Finset.prod_le_prod ?_ ?_) (Finset.prod_nonneg ?_)
  · intro m _
    cases f m with
    | none => exact hm m
    | some z => exact hL m z
  · intro m _
    cases f m with
    | none => exact le_refl _
    | some z => exact hLL m z
  · intro z _
    split
    · exact zero_le_one
    · exact hcl z

/-- C42 (partial): if every landmark has some measurement in reach and no partition needs Murty's algorithm, the likelihood lies between the sum
over all one-to-one partial associations and the same sum with `e^-1000` added to the entries. Missing: landmarks without a measurement in reach
(`C42_violated`), and large partitions, where only some associations are summed. -/
theorem C42_likelihood_partial (L : Fin nM → Fin nZ → ℝ) (pd : Fin nM → ℝ) (clut : Fin nZ → ℝ) (integral : ℝ)
    (murty : List (Fin nM) → List (Fin nZ) → Option ℝ) (fuel ncc : Nat) (lab : Fin nM ⊕ Fin nZ → Nat) (hcomp : IsComponents L 0 ncc lab)
    (hL : ∀ m z, 0 ≤ L m z) (hpd : ∀ m, pd m ≤ 1) (hcl : ∀ z, 0 ≤ clut z) (hsmall : Small L) (hf : 2 ^ 32 ≤ fuel) (hint : 0 < integral)
    (hreach : ∀ m, ∃ z, 0 < L m z) : ∃ v, rfsLik L pd clut integral murty fuel ncc lab = some v ∧
      total L (fun m => 1 - pd m) clut / integral ≤ v ∧ v ≤ total (fun m z => L m z + Real.exp (-1000)) (fun m => 1 - pd m) clut / integral := by
  classical
  refine ⟨_, C42_value_partial L pd clut integral murty fuel ncc lab hcomp hL hpd hcl hsmall hf, ?_, ?_⟩
  all_goals
    have hmiss : missed L pd = fun m => 1 - pd m := by
      funext m
      unfold missed
      obtain ⟨z, hz⟩ := hreach m
      rw [if_neg (fun h => absurd (h z) (not_le.2 hz))]
    rw [hmiss, div_le_div_iff_of_pos_right hint]
  · refine total_mono _ _ _ _ hL (fun m z => ?_) (fun m => by linarith [hpd m]) hcl
    unfold floored
    split
    · exact le_max_left _ _
    · rename_i h
      by_contra hn
      exact h (.col m z _ (not_le.1 hn) (.refl _))
  · have hpos := (Real.exp_pos (-1000)).le
    refine total_mono _ _ _ _ (fun m z => ?_) (fun m z => ?_) (fun m => by linarith [hpd m]) hcl
    · unfold floored
      split
      · exact le_max_of_le_left (hL m z)
      · exact le_refl _
    · unfold floored
      split
      · exact max_le (by linarith) (by linarith [hL m z])
      · linarith [hL m z]

/-- C42 (partial): the exact sum, when moreover every entry between linked landmarks and measurements is at least `e^-1000`. -/
theorem C42_exact_partial (L : Fin nM → Fin nZ → ℝ) (pd : Fin nM → ℝ) (clut : Fin nZ → ℝ) (integral : ℝ)
    (murty : List (Fin nM) → List (Fin nZ) → Option ℝ) (fuel ncc : Nat) (lab : Fin nM ⊕ Fin nZ → Nat) (hcomp : IsComponents L 0 ncc lab)
    (hL : ∀ m z, 0 ≤ L m z) (hpd : ∀ m, pd m ≤ 1) (hcl : ∀ z, 0 ≤ clut z) (hsmall : Small L) (hf : 2 ^ 32 ≤ fuel)
    (hreach : ∀ m, ∃ z, 0 < L m z) (hdense : ∀ m z, Linked L 0 (.inl m) (.inr z) → Real.exp (-1000) ≤ L m z) :
    rfsLik L pd clut integral murty fuel ncc lab = some (total L (fun m => 1 - pd m) clut / integral) := by
  classical
  rw [C42_value_partial L pd clut integral murty fuel ncc lab hcomp hL hpd hcl hsmall hf]
  have hmiss : missed L pd = fun m => 1 - pd m := by
    funext m
    unfold missed
    obtain ⟨z, hz⟩ := hreach m
    rw [if_neg (fun h => absurd (h z) (not_le.2 hz))]
  have hfl : floored L = L := by
    funext m z
    unfold floored
    split
    · rename_i h; exact max_eq_left (hdense m z h)
    · rename_i h
      refine le_antisymm (hL m z) ?_
      by_contra hn
      exact h (.col m z _ (not_le.1 hn) (.refl _))
  rw [hmiss, hfl]

/-- All hypotheses of `C42_exact_partial` are met by one landmark within reach of one measurement. -/
example : Small (fun (_ : Fin 1) (_ : Fin 1) => (1 : ℝ)) ∧ ∀ m : Fin 1, ∃ z : Fin 1, (0 : ℝ) < (fun (_ : Fin 1) (_ : Fin 1) => (1 : ℝ)) m z := by
  refine ⟨fun R C _ _ _ => ?_, fun m => ⟨0, by norm_num⟩⟩
  have h1 := Finset.card_le_univ R
  have h2 := Finset.card_le_univ C
  simp only [Fintype.card_fin] at h1 h2
  omega

open Classical in
/-- C42 (partial), partitions of any size, with Murty's algorithm as in the code: the likelihood is a product over partitions, as is the sum over all associations. For a
partition with at most 8 rows and columns the factors agree. For a larger one, the factor of the code exceeds the sum over the associations of the partition by no more than
`err = 200 exp(-1000 + n hi + 2 n 1e-12)`, and no 200 associations of the partition have a sum of weights greater than it, up to the factor `exp(n 1e-12)` and `err`: the code adds
the 200 greatest weights. Missing: the weights of the other associations of large partitions; and see `C42_violated`. -/
theorem C42_blocks_partial (L : Fin nM → Fin nZ → ℝ) (pd : Fin nM → ℝ) (clut : Fin nZ → ℝ) (integral : ℝ) (Q : ∀ n, Murty.PQ ℝ n) (mfuel fuel ncc : Nat)
    (lab : Fin nM ⊕ Fin nZ → Nat) (hcomp : IsComponents L 0 ncc lab) (lo hi : ℝ) (hL : ∀ m z, 0 ≤ L m z ∧ L m z ≤ Real.exp hi)
    (hpd : ∀ m, Real.exp lo ≤ 1 - pd m ∧ 1 - pd m ≤ Real.exp hi) (hcl : ∀ z, Real.exp lo ≤ clut z ∧ clut z ≤ Real.exp hi) (hlo : -1000 ≤ lo) (hl0 : lo ≤ 0) (h0h : 0 ≤ hi)
    (hbig : (nM + nZ : ℕ) * (hi - lo) + (nM + nZ : ℕ) * (1 / 10 ^ 12) < 8000) (hf : 2 ^ 32 ≤ fuel) (hmf : (nM + nZ) * (nM + nZ + 1) < mfuel) :
    ∃ (P : Nat) (R : Nat → Finset (Fin nM)) (C : Nat → Finset (Fin nZ)) (v : Nat → ℝ),
      rfsLik L pd clut integral (murtyBlock Q 10000 mfuel L pd clut) fuel ncc lab = some ((∏ p ∈ Finset.range P, v p) / integral) ∧
      total (floored L) (missed L pd) clut = ∏ p ∈ Finset.range P, S (floored L) (missed L pd) clut (R p) (C p) ∧
      ∀ p < P, v p = S (floored L) (missed L pd) clut (R p) (C p) ∨
        (8 < (R p).card + (C p).card ∧
          v p ≤ S (floored L) (missed L pd) clut (R p) (C p) + 200 * Real.exp (-1000 + ((R p).card + (C p).card : ℕ) * hi + 2 * ((R p).card + (C p).card : ℕ) * (1 / 10 ^ 12)) ∧
          ∀ T ⊆ Match (R p) (C p), T.card ≤ 200 →
            ∑ f ∈ T, (∏ m ∈ R p, rowW (floored L) (missed L pd) f m) * ∏ z ∈ C p, colW clut f z ≤ Real.exp (((R p).card + (C p).card : ℕ) * (1 / 10 ^ 12)) * v p +
              200 * Real.exp (-1000 + ((R p).card + (C p).card : ℕ) * hi + 2 * ((R p).card + (C p).card : ℕ) * (1 / 10 ^ 12))) := by
  have hpd1 : ∀ m, pd m ≤ 1 := fun m => by have := Real.exp_pos lo; linarith [(hpd m).1]
  obtain ⟨o, ho, htot, hb⟩ := blocks L pd clut (murtyBlock Q 10000 mfuel L pd clut) fuel ncc lab hcomp (fun m z => (hL m z).1) hpd1
    (fun z => (Real.exp_pos lo).le.trans (hcl z).1) hf
  have key : ∀ p, ∃ v, p < o.nP → partLik L pd clut (murtyBlock Q 10000 mfuel L pd clut) fuel o p = some v ∧
      (v = S (floored L) (missed L pd) clut (o.I p).toFinset (o.J p).toFinset ∨
        (8 < (o.I p).toFinset.card + (o.J p).toFinset.card ∧
          v ≤ S (floored L) (missed L pd) clut (o.I p).toFinset (o.J p).toFinset + 200 * Real.exp (-1000 + ((o.I p).toFinset.card + (o.J p).toFinset.card : ℕ) * hi +
            2 * ((o.I p).toFinset.card + (o.J p).toFinset.card : ℕ) * (1 / 10 ^ 12)) ∧
          ∀ T ⊆ Match (o.I p).toFinset (o.J p).toFinset, T.card ≤ 200 →
            ∑ f ∈ T, (∏ m ∈ (o.I p).toFinset, rowW (floored L) (missed L pd) f m) * ∏ z ∈ (o.J p).toFinset, colW clut f z ≤
              Real.exp (((o.I p).toFinset.card + (o.J p).toFinset.card : ℕ) * (1 / 10 ^ 12)) * v +
              200 * Real.exp (-1000 + ((o.I p).toFinset.card + (o.J p).toFinset.card : ℕ) * hi + 2 * ((o.I p).toFinset.card + (o.J p).toFinset.card : ℕ) * (1 / 10 ^ 12)))) := by
    intro p
    by_cases hp : p < o.nP
    swap
    · exact ⟨0, fun h => absurd h hp⟩
    obtain ⟨h1, h2, h3 | ⟨hr0, hc0, hrc, h8, h3⟩⟩ := hb p hp
    · exact ⟨_, fun _ => ⟨h3, Or.inl rfl⟩⟩
    · have c1 : (o.I p).toFinset.card = (o.I p).length := List.toFinset_card_of_nodup h1
      have c2 : (o.J p).toFinset.card = (o.J p).length := List.toFinset_card_of_nodup h2
      have hn : (o.I p).length + (o.J p).length ≤ nM + nZ := by
        have a1 := Finset.card_le_univ (o.I p).toFinset
        have a2 := Finset.card_le_univ (o.J p).toFinset
        rw [Fintype.card_fin] at a1 a2
        omega
      have hn' : ((((o.I p).length + (o.J p).length : ℕ)) : ℝ) ≤ ((nM + nZ : ℕ) : ℝ) := Nat.cast_le.2 hn
      obtain ⟨v, hv, hle, hT⟩ := murtyBlock_spec Q 10000 mfuel L pd clut lo hi hL hpd hcl hlo hl0 h0h h1 h2 hr0 hc0 (by
        have : ((((o.I p).length + (o.J p).length : ℕ)) : ℝ) * (hi - lo + 1 / 10 ^ 12) ≤ ((nM + nZ : ℕ) : ℝ) * (hi - lo + 1 / 10 ^ 12) :=
          mul_le_mul_of_nonneg_right hn' (by have : (0 : ℝ) ≤ 1 / 10 ^ 12 := by norm_num
                                             linarith)
        linarith) (lt_of_le_of_lt (Nat.mul_le_mul hn (by omega)) hmf)
      have eL : ∀ m ∈ o.I p, ∀ z ∈ o.J p, max (L m z) eps = floored L m z := by
        intro m hm z hz
        unfold floored
        rw [if_pos (hrc m hm z hz)]
        rfl
      have eM : ∀ m ∈ o.I p, 1 - pd m = missed L pd m := by
        intro m hm
        unfold missed
        obtain ⟨j, hj⟩ := List.exists_mem_of_ne_nil _ hc0
        rw [if_neg (not_empty_of_linked L m j (hrc m hm j hj))]
      refine ⟨v, fun _ => ⟨by rw [h3, hv], Or.inr ⟨by rw [c1, c2]; exact h8, ?_, ?_⟩⟩⟩
      · rw [c1, c2]
        refine hle.trans (le_of_eq ?_)
        congr 1
        exact S_congr _ _ _ _ _ _ _ _ (fun m hm z hz => eL m (List.mem_toFinset.1 hm) z (List.mem_toFinset.1 hz)) (fun m hm => eM m (List.mem_toFinset.1 hm)) (fun _ _ => rfl)
      · intro T hTs hTc
        rw [c1, c2]
        refine le_trans (le_of_eq ?_) (hT T hTs hTc)
        refine Finset.sum_congr rfl fun f hf => ?_
        congr 1
        refine Finset.prod_congr rfl fun m hm => ?_
        have hfm := mem_Match.1 (hTs hf)
        unfold rowW
        cases e : f m with
        | none => exact (eM m (List.mem_toFinset.1 hm)).symm
        | some z => exact (eL m (List.mem_toFinset.1 hm) z (List.mem_toFinset.1 (hfm.2.1 m z e))).symm
  choose v hv using key
  refine ⟨o.nP, fun p => (o.I p).toFinset, fun p => (o.J p).toFinset, v, ?_, htot, fun p hp => (hv p hp).2⟩
  unfold rfsLik
  rw [ho, Option.bind_some, prodLik_eq _ v _ (fun p hp => (hv p hp).1), Option.map_some]

/-- The numerical hypotheses of `C42_blocks_partial` are met by 10 landmarks with detection probability 1/2, 10 measurements, clutter intensity 2 and likelihoods up to 1. -/
example : (∀ (m : Fin 10) (z : Fin 10), (0 : ℝ) ≤ (if m = z then 1 else 1 / 1000) ∧ (if m = z then (1 : ℝ) else 1 / 1000) ≤ Real.exp 1) ∧
    (Real.exp (-1) ≤ 1 - (1 / 2 : ℝ) ∧ 1 - (1 / 2 : ℝ) ≤ Real.exp 1) ∧ (Real.exp (-1) ≤ (2 : ℝ) ∧ (2 : ℝ) ≤ Real.exp 1) ∧
    (((10 + 10 : ℕ) : ℝ) * (1 - (-1)) + ((10 + 10 : ℕ) : ℝ) * (1 / 10 ^ 12) < 8000) := by
  have h1 : (2 : ℝ) ≤ Real.exp 1 := by have := Real.add_one_le_exp (1 : ℝ); linarith
  have h2 : Real.exp (-1) ≤ 1 / 2 := by
    rw [Real.exp_neg, one_div]
    exact inv_anti₀ two_pos h1
  refine ⟨fun m z => ?_, ⟨by linarith, by linarith⟩, ⟨by linarith, h1⟩, by norm_num⟩
  split
  · constructor <;> linarith
  · constructor <;> linarith

theorem total_zero (L : Fin nM → Fin nZ → ℝ) (miss : Fin nM → ℝ) (clut : Fin nZ → ℝ) (h0 : ∀ m z, L m z = 0) :
    total L miss clut = (∏ m, miss m) * ∏ z, clut z := by
  rw [← S_univ, S_zero _ _ _ _ _ (fun m _ z _ => h0 m z)]

/-- One landmark with detection probability 1/4, one measurement out of reach, unit clutter: the likelihood is 1/4, where the only
association (missed detection and clutter) has weight 3/4. -/
theorem C42_violated : ∃ (L : Fin 1 → Fin 1 → ℝ) (pd : Fin 1 → ℝ) (clut : Fin 1 → ℝ), (∀ m z, 0 ≤ L m z) ∧ (∀ m, 0 ≤ pd m ∧ pd m ≤ 1) ∧
    ∀ murty fuel ncc lab, IsComponents L 0 ncc lab → 2 ^ 32 ≤ fuel → rfsLik L pd clut 1 murty fuel ncc lab = some (1 / 4) ∧
      total L (fun m => 1 - pd m) clut / 1 = 3 / 4 := by
  refine ⟨fun _ _ => 0, fun _ => 1 / 4, fun _ => 1, fun _ _ => le_refl _, fun _ => by norm_num, ?_⟩
  intro murty fuel ncc lab hc hf
  have hsmall : Small (fun (_ : Fin 1) (_ : Fin 1) => (0 : ℝ)) := by
    intro R C _ _ _
    have h1 := Finset.card_le_univ R
    have h2 := Finset.card_le_univ C
    simp only [Fintype.card_fin] at h1 h2
    omega
  have hnl : ∀ m z, floored (fun (_ : Fin 1) (_ : Fin 1) => (0 : ℝ)) m z = 0 := by
    intro m z
    unfold floored
    rw [if_neg]
    intro h
    exact not_empty_of_linked _ m z h (fun _ => le_refl _)
  constructor
  · rw [C42_value_partial _ _ _ 1 murty fuel ncc lab hc (fun _ _ => le_refl _) (fun _ => by norm_num) (fun _ => by norm_num) hsmall hf, total_zero _ _ _ hnl]
    have : missed (fun (_ : Fin 1) (_ : Fin 1) => (0 : ℝ)) (fun _ => 1 / 4) 0 = 1 / 4 := by
      unfold missed
      have he : EmptyRow (fun (_ : Fin 1) (_ : Fin 1) => (0 : ℝ)) 0 (0 : Fin 1) := fun _ => le_refl _
      rw [if_pos he]
    rw [Fin.prod_univ_one, Fin.prod_univ_one, this]
    norm_num
  · rw [total_zero _ _ _ (fun _ _ => rfl)]
    simp
    norm_num

end RFSLikProps
end RFS
