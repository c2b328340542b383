import Verif.Lemmas.BatchLik
import Verif.Props.RFSLikelihood
import Mathlib.Analysis.SpecialFunctions.Log.Deriv
import Mathlib.Analysis.SpecialFunctions.ExpDeriv
import Mathlib.Analysis.Calculus.Deriv.Add

/-!
Properties C115-C118: the measurement likelihoods of the batch optimisers.

Specification: `Assoc.total L miss clut`, the sum over all one-to-one partial associations of landmarks with measurements.
-/

set_option linter.unusedSectionVars false

namespace RFS
namespace BatchLikProps
open BatchLik Partition PartitionProps Assoc Murty MurtyBlockProps
open RFSLikProps (floored missed prodLik_eq total_zero)

variable {nM nZ : Nat}

/-! ### C115: RFSPSOSLAM -/

/-- The bound on what a partition of `n` rows and columns gets wrong. -/
noncomputable def err (cnt n : Nat) (hi : ℝ) : ℝ := cnt * Real.exp (-1000 + n * hi + 2 * n * (1 / 10 ^ 12))

/-- The entries of the table: a detection likelihood is taken as it is, or as 0 if it is below the threshold. -/
theorem C115_entry (g pd thr : ℝ) : (thr ≤ g * pd → psoEntry g pd thr = g * pd) ∧ (g * pd < thr → psoEntry g pd thr = 0) :=
  ⟨fun h => if_neg (not_lt.2 h), fun h => if_pos h⟩

/-- Two landmarks and two measurements in one partition. -/
theorem two_by_two (c thr : ℝ) (h : thr < c) : IsComponents (fun (_ _ : Fin 2) => c) thr 1 (fun _ => 0) := by
  refine ⟨fun _ => one_pos, fun x hx => ⟨.inl 0, by omega⟩, fun u v => ⟨fun _ => ?_, fun _ => rfl⟩⟩
  have e : ∀ i j : Fin 2, Conn (fun (_ _ : Fin 2) => c) thr (.inl i) (.inr j) := fun i j => Relation.EqvGen.rel _ _ (.mk i j h)
  have r : ∀ w : Fin 2 ⊕ Fin 2, Conn (fun (_ _ : Fin 2) => c) thr w (.inr 0) := by
    rintro (i | j)
    · exact e i 0
    · exact Relation.EqvGen.trans _ _ _ (Relation.EqvGen.symm _ _ (e 0 j)) (e 0 0)
  exact Relation.EqvGen.trans _ _ _ (r u) (Relation.EqvGen.symm _ _ (r v))

open Classical in
/-- **C115** (partial): with a landmark in view, the likelihood is a product over partitions divided by the integral of the clutter intensity, as is the sum over all associations. For the partition
without entries the factors agree. For another one, the factor of the code exceeds the sum over its associations by no more than `err`, and no 200 associations have a sum of weights
greater than it, up to the factor `exp(n 1e-12)` and `err`. Missing: no landmark in view (`C115_violated_empty`), the true missed detection terms (`C115_violated_missed`), and the weights beyond
the 200 greatest. -/
theorem C115_blocks_partial (L : Fin nM → Fin nZ → ℝ) (pd : Fin nM → ℝ) (clut : Fin nZ → ℝ) (integral : ℝ) (Q : ∀ n, Murty.PQ ℝ n) (fuel ncc : Nat)
    (lab : Fin nM ⊕ Fin nZ → Nat) (hcomp : IsComponents L 0 ncc lab) (lo hi : ℝ) (hM : nM ≠ 0) (hL : ∀ m z, 0 ≤ L m z ∧ L m z ≤ Real.exp hi)
    (hpd : ∀ m, Real.exp lo ≤ 1 - pd m ∧ 1 - pd m ≤ Real.exp hi) (hcl : ∀ z, Real.exp lo ≤ clut z ∧ clut z ≤ Real.exp hi) (hlo : -1000 ≤ lo) (hl0 : lo ≤ 0) (h0h : 0 ≤ hi)
    (hbig : (nM + nZ : ℕ) * (hi - lo) + (nM + nZ : ℕ) * (1 / 10 ^ 12) < 8000) (hf : (nM + nZ) * (nM + nZ + 1) < fuel) :
    ∃ (P : Nat) (R : Nat → Finset (Fin nM)) (C : Nat → Finset (Fin nZ)) (v : Nat → ℝ),
      psoLik Q 10000 fuel L pd clut integral ncc lab = some ((∏ p ∈ Finset.range P, v p) / integral) ∧
      total (floored L) (missed L pd) clut = ∏ p ∈ Finset.range P, S (floored L) (missed L pd) clut (R p) (C p) ∧
      ∀ p < P, v p = S (floored L) (missed L pd) clut (R p) (C p) ∨
        (v p ≤ S (floored L) (missed L pd) clut (R p) (C p) + err 200 ((R p).card + (C p).card) hi ∧
          ∀ T ⊆ Match (R p) (C p), T.card ≤ 200 →
            ∑ f ∈ T, (∏ m ∈ R p, rowW (floored L) (missed L pd) f m) * ∏ z ∈ C p, colW clut f z ≤ Real.exp (((R p).card + (C p).card : ℕ) * (1 / 10 ^ 12)) * v p +
              err 200 ((R p).card + (C p).card) hi) := by
  obtain ⟨o, ho, htot, -, -, hb⟩ := decomp L 0 ncc lab hcomp (floored L) (fun m z h => by unfold floored; rw [if_neg h]) (missed L pd) clut
  have key : ∀ p, ∃ v, p < o.nP → psoPart Q 10000 fuel L pd clut o p = some v ∧
      (v = S (floored L) (missed L pd) clut (o.I p).toFinset (o.J p).toFinset ∨
        (v ≤ S (floored L) (missed L pd) clut (o.I p).toFinset (o.J p).toFinset + err 200 ((o.I p).toFinset.card + (o.J p).toFinset.card) hi ∧
          ∀ T ⊆ Match (o.I p).toFinset (o.J p).toFinset, T.card ≤ 200 →
            ∑ f ∈ T, (∏ m ∈ (o.I p).toFinset, rowW (floored L) (missed L pd) f m) * ∏ z ∈ (o.J p).toFinset, colW clut f z ≤
              Real.exp (((o.I p).toFinset.card + (o.J p).toFinset.card : ℕ) * (1 / 10 ^ 12)) * v + err 200 ((o.I p).toFinset.card + (o.J p).toFinset.card) hi)) := by
    intro p
    by_cases hp : p < o.nP
    swap
    · exact ⟨0, fun h => absurd h hp⟩
    obtain ⟨h1, h2, ⟨hz, hzr, -⟩ | ⟨hz, hr0, hc0, hrc⟩⟩ := hb p hp
    · refine ⟨_, fun _ => ⟨?_, Or.inl rfl⟩⟩
      unfold psoPart
      simp only
      rw [if_pos (by simp [getPartition, hz]), S_zero]
      · show some (((o.I p).map pd).prod * ((o.J p).map clut).prod) = _
        rw [List.prod_toFinset _ h1, List.prod_toFinset _ h2]
        congr 3
        refine List.map_congr_left fun m hm => ?_
        unfold missed
        rw [if_pos ((hzr m).1 hm)]
      · intro m hm z _
        unfold floored
        rw [if_neg]
        intro h
        exact BatchLik.not_empty_of_linked L 0 m z h ((hzr m).1 (List.mem_toFinset.1 hm))
    · have c1 : (o.I p).toFinset.card = (o.I p).length := List.toFinset_card_of_nodup h1
      have c2 : (o.J p).toFinset.card = (o.J p).length := List.toFinset_card_of_nodup h2
      have hn : (o.I p).length + (o.J p).length ≤ nM + nZ := by
        have a1 := Finset.card_le_univ (o.I p).toFinset
        have a2 := Finset.card_le_univ (o.J p).toFinset
        rw [Fintype.card_fin] at a1 a2
        omega
      have hn' : ((((o.I p).length + (o.J p).length : ℕ)) : ℝ) ≤ ((nM + nZ : ℕ) : ℝ) := Nat.cast_le.2 hn
      obtain ⟨v, hv, hle, hT⟩ := RFSLik.murtyBlock_spec Q 10000 fuel L pd clut lo hi hL hpd hcl hlo hl0 h0h h1 h2 hr0 hc0 (by
        have : ((((o.I p).length + (o.J p).length : ℕ)) : ℝ) * (hi - lo + 1 / 10 ^ 12) ≤ ((nM + nZ : ℕ) : ℝ) * (hi - lo + 1 / 10 ^ 12) :=
          mul_le_mul_of_nonneg_right hn' (by have : (0 : ℝ) ≤ 1 / 10 ^ 12 := by norm_num
                                             linarith)
        linarith) (lt_of_le_of_lt (Nat.mul_le_mul hn (by omega)) hf)
      have eL : ∀ m ∈ o.I p, ∀ z ∈ o.J p, max (L m z) RFSLik.eps = floored L m z := by
        intro m hm z hz
        unfold floored
        rw [if_pos (hrc m hm z hz)]
        rfl
      have eM : ∀ m ∈ o.I p, 1 - pd m = missed L pd m := by
        intro m hm
        unfold missed
        obtain ⟨j, hj⟩ := List.exists_mem_of_ne_nil _ hc0
        rw [if_neg (BatchLik.not_empty_of_linked L 0 m j (hrc m hm j hj))]
      refine ⟨v, fun _ => ⟨?_, Or.inr ⟨?_, ?_⟩⟩⟩
      · unfold psoPart
        simp only
        rw [if_neg (by simp [getPartition, hz])]
        exact hv
      · rw [c1, c2]
        unfold err
        push_cast at hle ⊢
        refine hle.trans (le_of_eq ?_)
        congr 1
        exact S_congr _ _ _ _ _ _ _ _ (fun m hm z hz => eL m (List.mem_toFinset.1 hm) z (List.mem_toFinset.1 hz)) (fun m hm => eM m (List.mem_toFinset.1 hm)) (fun _ _ => rfl)
      · intro T hTs hTc
        rw [c1, c2]
        have hT' := hT T hTs hTc
        unfold err
        push_cast at hT' ⊢
        refine le_trans (le_of_eq ?_) hT'
        refine Finset.sum_congr rfl fun f hf => ?_
        congr 1
        refine Finset.prod_congr rfl fun m hm => ?_
        have hfm := (mem_Match.1 (hTs hf)).2.1 m
        unfold rowW
        cases e : f m with
        | none => exact (eM m (List.mem_toFinset.1 hm)).symm
        | some z => exact (eL m (List.mem_toFinset.1 hm) z (List.mem_toFinset.1 (hfm z e))).symm
  choose v hv using key
  refine ⟨o.nP, fun p => (o.I p).toFinset, fun p => (o.J p).toFinset, v, ?_, htot, fun p hp => (hv p hp).2⟩
  unfold psoLik
  rw [if_neg hM, ho, Option.bind_some, prodLik_eq _ v _ fun p hp => (hv p hp).1, Option.map_some]

example : IsComponents (fun (_ _ : Fin 2) => (1 / 2 : ℝ)) 0 1 (fun _ => 0) ∧ (1 / 2 : ℝ) ≤ Real.exp 1 ∧ (Real.exp (-1) ≤ 1 - (1 / 2 : ℝ) ∧ 1 - (1 / 2 : ℝ) ≤ Real.exp 1) ∧
    (Real.exp (-1) ≤ (2 : ℝ) ∧ (2 : ℝ) ≤ Real.exp 1) ∧ (((2 + 2 : ℕ) : ℝ) * (1 - (-1)) + ((2 + 2 : ℕ) : ℝ) * (1 / 10 ^ 12) < 8000) := by
  have h1 : (2 : ℝ) ≤ Real.exp 1 := by have := Real.add_one_le_exp (1 : ℝ); linarith
  have h2 : Real.exp (-1) ≤ 1 / 2 := by
    rw [Real.exp_neg, one_div]
    exact inv_anti₀ two_pos h1
  exact ⟨two_by_two _ _ (by norm_num), by linarith, ⟨by linarith, by linarith⟩, ⟨by linarith, h1⟩, by norm_num⟩

/-- Without a landmark in view the likelihood of two false alarms of unit intensity, with an integral of 2, is 1 where it should be 1/2. -/
theorem C115_violated_empty (Q : ∀ n, Murty.PQ ℝ n) (fuel ncc : Nat) (lab : Fin 0 ⊕ Fin 2 → Nat) :
    psoLik Q 10000 fuel (fun (m : Fin 0) (_ : Fin 2) => m.elim0) (fun m => m.elim0) (fun _ => 1) 2 ncc lab = some 1 ∧
      total (fun (m : Fin 0) (_ : Fin 2) => (m.elim0 : ℝ)) (fun m => 1 - m.elim0) (fun _ => 1) / 2 = 1 / 2 := by
  refine ⟨by simp [psoLik], ?_⟩
  rw [total_zero _ _ _ (fun m => m.elim0)]
  simp

/-- A landmark with detection probability 9/10 and an empty scan: the likelihood is 9/10 where it should be 1/10. -/
theorem C115_violated_missed (Q : ∀ n, Murty.PQ ℝ n) (fuel ncc : Nat) (lab : Fin 1 ⊕ Fin 0 → Nat)
    (hcomp : IsComponents (fun (_ : Fin 1) (z : Fin 0) => (z.elim0 : ℝ)) 0 ncc lab) (hf : 2 < fuel) :
    psoLik Q 10000 fuel (fun (_ : Fin 1) (z : Fin 0) => z.elim0) (fun _ => 9 / 10) (fun z => z.elim0) 1 ncc lab = some (9 / 10) ∧
      total (fun (_ : Fin 1) (z : Fin 0) => (z.elim0 : ℝ)) (fun _ => 1 - 9 / 10) (fun z => z.elim0) / 1 = 1 / 10 := by
  obtain ⟨o, ho, htot, -, -, hb⟩ := decomp _ 0 ncc lab hcomp (fun _ z => z.elim0) (fun m z => z.elim0) (fun _ => 9 / 10) (fun z => z.elim0)
  have hpart : ∀ p < o.nP, psoPart Q 10000 fuel (fun (_ : Fin 1) (z : Fin 0) => (z.elim0 : ℝ)) (fun _ => 9 / 10) (fun z => z.elim0) o p =
      some (S (fun (_ : Fin 1) (z : Fin 0) => (z.elim0 : ℝ)) (fun _ => 9 / 10) (fun z => z.elim0) (o.I p).toFinset (o.J p).toFinset) := by
    intro p hp
    obtain ⟨h1, h2, ⟨hz, -, -⟩ | ⟨-, -, hc0, -⟩⟩ := hb p hp
    · unfold psoPart
      simp only
      rw [if_pos (by simp [getPartition, hz]), S_zero _ _ _ _ _ fun m _ z => z.elim0, List.prod_toFinset _ h1, List.prod_toFinset _ h2]
      rfl
    · obtain ⟨j, -⟩ := List.exists_mem_of_ne_nil _ hc0
      exact j.elim0
  constructor
  · unfold psoLik
    rw [if_neg (by decide), ho, Option.bind_some, prodLik_eq _ _ _ hpart, Option.map_some, ← htot, total_zero _ _ _ (fun m z => z.elim0)]
    simp
  · rw [total_zero _ _ _ (fun m z => z.elim0)]
    norm_num

/-! ### C116: value of RFSCeresSLAM -/

/-- The true likelihood in terms of ratios. -/
theorem total_ratio (L : Fin nM → Fin nZ → ℝ) (miss : Fin nM → ℝ) (clut : Fin nZ → ℝ) (hm : ∀ m, miss m ≠ 0) (hc : ∀ z, clut z ≠ 0) :
    total L miss clut = (∏ m, miss m) * (∏ z, clut z) * total (fun m z => L m z / (miss m * clut z)) (fun _ => 1) (fun _ => 1) := by
  classical
  unfold Assoc.total
  rw [Finset.mul_sum]
  refine Finset.sum_congr rfl fun f hf => ?_
  have hf1 : OneToOne f := ((@Finset.mem_filter _ _ (_) _ _).1 hf).2
  have e2 : ∏ z, (if ∃ m, f m = some z then (1 : ℝ) else clut z) * (if ∃ m, f m = some z then clut z else 1) = ∏ z, clut z :=
    Finset.prod_congr rfl fun z _ => by split <;> simp
  have e3 : ∏ z, (if ∃ m, f m = some z then clut z else 1) = ∏ m, (match f m with | some z => clut z | none => 1) := by
    rw [Finset.prod_ite, Finset.prod_const_one, mul_one]
    have e4 : ∏ m, (match f m with | some z => clut z | none => (1 : ℝ)) = ∏ m ∈ Finset.univ.filter (fun m => (f m).isSome), (match f m with | some z => clut z | none => (1 : ℝ)) := by
      rw [Finset.prod_filter]
      refine Finset.prod_congr rfl fun m _ => ?_
      cases f m <;> simp
    rw [e4]
    symm
    refine Finset.prod_bij (fun m hm => (f m).get (Finset.mem_filter.1 hm).2) ?_ ?_ ?_ ?_
    · intro m hm
      exact Finset.mem_filter.2 ⟨Finset.mem_univ _, m, by simp⟩
    · intro m hm m' hm' h
      refine hf1 m m' ((f m).get (Finset.mem_filter.1 hm).2) (by simp) ?_
      rw [h]; simp
    · intro z hz
      obtain ⟨m, hm⟩ := (Finset.mem_filter.1 hz).2
      exact ⟨m, Finset.mem_filter.2 ⟨Finset.mem_univ _, by rw [hm]; rfl⟩, by simp [hm]⟩
    · intro m hm
      have := (Finset.mem_filter.1 hm).2
      obtain ⟨z, hz⟩ := Option.isSome_iff_exists.1 this
      simp only [hz, Option.get_some]
  change (∏ m, rowW L miss f m) * (∏ z, colW clut f z) = (∏ m, miss m) * (∏ z, clut z) * ((∏ m, rowW (fun m z => L m z / (miss m * clut z)) (fun _ => 1) f m) * ∏ z, colW (fun _ => (1 : ℝ)) f z)
  rw [← e2, Finset.prod_mul_distrib, e3]
  have e5 : ∏ m, rowW L miss f m =
      (∏ m, miss m) * (∏ m, (match f m with | some z => clut z | none => (1 : ℝ))) * ∏ m, rowW (fun m z => L m z / (miss m * clut z)) (fun _ => 1) f m := by
    rw [← Finset.prod_mul_distrib, ← Finset.prod_mul_distrib]
    refine Finset.prod_congr rfl fun m _ => ?_
    unfold rowW
    cases f m with
    | none => simp
    | some z =>
      have := hm m
      have := hc z
      simp only
      field_simp
  have e6 : ∏ z, colW (fun _ => (1 : ℝ)) f z = 1 := Finset.prod_eq_one fun z _ => by unfold colW; split <;> rfl
  rw [e5, e6]
  unfold colW
  ring

open Classical in
/-- The ratios the code works with: pairs in the same partition are raised to `e^-1000`. -/
noncomputable def ratios (Lg : Fin nM → Fin nZ → ℝ) (m : Fin nM) (z : Fin nZ) : ℝ :=
  if Linked Lg (-1000) (.inl m) (.inr z) then Real.exp (max (Lg m z) (-1000)) else 0

theorem logEntry_exp (x : ℝ) (h : -1000 ≤ x) : (RFSLik.logEntry (Real.exp x)).unbotD 0 = x := by
  have h1 := (RFSLik.exp_logEntry (Real.exp x) (Real.exp_pos x).le).1
  rw [max_eq_left (by unfold RFSLik.eps; exact Real.exp_le_exp.2 h)] at h1
  exact Real.exp_injective h1

open Classical in
/-- What Murty's algorithm finds for one partition. -/
theorem block_results (Q : ∀ n, Murty.PQ ℝ n) (fuel : Nat) (Lg : Fin nM → Fin nZ → ℝ) (hi : ℝ) (h0h : 0 ≤ hi) (hLg : ∀ m z, Lg m z ≤ hi)
    (hbig : (nM + nZ : ℕ) * hi + 2 * (nM + nZ : ℕ) * (1 / 10 ^ 12) < 1000) (hf : (nM + nZ) * (nM + nZ + 1) < fuel) (rows : List (Fin nM)) (cols : List (Fin nZ)) (hr : rows.Nodup)
    (hc : cols.Nodup) (hr0 : rows ≠ []) (hc0 : cols ≠ []) (hlink : ∀ i ∈ rows, ∀ j ∈ cols, Linked Lg (-1000) (.inl i) (.inr j)) :
    ∃ a0 s0 l, results (Q (rows.length + cols.length)) (fun i j => max (Lg (rows.get i) (cols.get j)) (-1000)) (-1000) 10000 fuel = some ((a0, s0), l) ∧ -1000 < s0 ∧
      (∀ x ∈ (a0, s0) :: l, x.2 = ∑ i, MurtyLik.extMatrix (fun i j => max (Lg (rows.get i) (cols.get j)) (-1000)) (fun _ => 0) (fun _ => 0) (-1000) i (x.1 i)) ∧
      0 < Real.exp s0 + (l.map fun x => Real.exp x.2).sum ∧
      Real.exp s0 + (l.map fun x => Real.exp x.2).sum ≤ S (ratios Lg) (fun _ => 1) (fun _ => 1) rows.toFinset cols.toFinset + err 201 (rows.toFinset.card + cols.toFinset.card) hi ∧
      ∀ T ⊆ Match rows.toFinset cols.toFinset, T.card ≤ 201 → ∑ f ∈ T, (∏ m ∈ rows.toFinset, rowW (ratios Lg) (fun _ => 1) f m) * ∏ z ∈ cols.toFinset, colW (fun _ => 1) f z ≤
        Real.exp ((rows.toFinset.card + cols.toFinset.card : ℕ) * (1 / 10 ^ 12)) * (Real.exp s0 + (l.map fun x => Real.exp x.2).sum) + err 201 (rows.toFinset.card + cols.toFinset.card) hi := by
  have c1 : rows.toFinset.card = rows.length := List.toFinset_card_of_nodup hr
  have c2 : cols.toFinset.card = cols.length := List.toFinset_card_of_nodup hc
  have hn : rows.length + cols.length ≤ nM + nZ := by
    have a1 := Finset.card_le_univ rows.toFinset
    have a2 := Finset.card_le_univ cols.toFinset
    rw [Fintype.card_fin] at a1 a2
    omega
  have hn' : (((rows.length + cols.length : ℕ)) : ℝ) ≤ ((nM + nZ : ℕ) : ℝ) := Nat.cast_le.2 hn
  have hn'' : (((rows.length + cols.length : ℕ)) : ℝ) * (hi + 2 * (1 / 10 ^ 12)) ≤ ((nM + nZ : ℕ) : ℝ) * (hi + 2 * (1 / 10 ^ 12)) :=
    mul_le_mul_of_nonneg_right hn' (by positivity)
  have hpos : (0 : ℝ) ≤ ((rows.length + cols.length : ℕ)) * (1 / 10 ^ 12) := by positivity
  have hff : (rows.length + cols.length) * (rows.length + cols.length + 1) < fuel := lt_of_le_of_lt (Nat.mul_le_mul hn (by omega)) hf
  have hRg : Ranges (fun (i : Fin rows.length) (j : Fin cols.length) => max (Lg (rows.get i) (cols.get j)) (-1000)) (fun _ => 0) (fun _ => 0) (-1000) 10000 0 hi :=
    ⟨List.length_pos_of_ne_nil hr0, List.length_pos_of_ne_nil hc0, fun r c => ⟨le_max_right _ _, max_le (hLg _ _) (by linarith)⟩, fun _ => ⟨le_rfl, h0h⟩, fun _ => ⟨le_rfl, h0h⟩,
      by norm_num, le_rfl, h0h, by linarith⟩
  obtain ⟨_, a0, s0, res, ext, -, -, -, hres, -, -, -, hs0⟩ := results_spec (Q (rows.length + cols.length)) hRg fuel hff (by linarith)
  have hpart := partition_results _ _ _ _ _ hres hs0.le
  obtain ⟨v, hv, hle, hT⟩ := RFSLik.block_spec (rows := rows) (cols := cols) Q 10000 fuel 201 (fun m z => Real.exp (max (Lg m z) (-1000))) (fun _ => 0) (fun _ => 1) 0 hi
    (fun m z => ⟨(Real.exp_pos _).le, Real.exp_le_exp.2 (max_le (hLg m z) (by linarith))⟩) (fun _ => by simp [h0h]) (fun _ => by simp [h0h]) (by norm_num) le_rfl h0h hr hc hr0 hc0
    (by linarith) hff
  have e1 : (fun (i : Fin rows.length) (j : Fin cols.length) => (RFSLik.logEntry (Real.exp (max (Lg (rows.get i) (cols.get j)) (-1000)))).unbotD 0) =
      fun i j => max (Lg (rows.get i) (cols.get j)) (-1000) := by
    funext i j
    exact logEntry_exp _ (le_max_right _ _)
  rw [e1] at hv
  simp only [sub_zero, Real.log_one] at hv
  rw [hpart] at hv
  have hv' := Option.some.inj hv
  have eL : ∀ m ∈ rows, ∀ z ∈ cols, max (Real.exp (max (Lg m z) (-1000))) RFSLik.eps = ratios Lg m z := by
    intro m hm z hz
    unfold ratios
    rw [if_pos (hlink m hm z hz), max_eq_left]
    unfold RFSLik.eps
    exact Real.exp_le_exp.2 (le_max_right _ _)
  refine ⟨a0, s0, res ++ ext, hres, hs0, results_total _ hRg fuel hff hres, ?_, ?_, ?_⟩
  · have : 0 ≤ ((res ++ ext).map fun x => Real.exp x.2).sum := List.sum_nonneg fun x hx => by
      obtain ⟨y, -, rfl⟩ := List.mem_map.1 hx
      exact (Real.exp_pos _).le
    have := Real.exp_pos s0
    linarith
  · rw [hv', c1, c2]
    unfold err
    refine hle.trans (le_of_eq ?_)
    congr 1
    exact S_congr _ _ _ _ _ _ _ _ (fun m hm z hz => eL m (List.mem_toFinset.1 hm) z (List.mem_toFinset.1 hz)) (fun m hm => by norm_num) (fun _ _ => rfl)
  · intro T hTs hTc
    rw [hv', c1, c2]
    unfold err
    refine le_trans (le_of_eq ?_) (hT T hTs hTc)
    refine Finset.sum_congr rfl fun f hf => ?_
    congr 1
    refine Finset.prod_congr rfl fun m hm => ?_
    have hfm := (mem_Match.1 (hTs hf)).2.1 m
    unfold rowW
    cases e : f m with
    | none => norm_num
    | some z => exact (eL m (List.mem_toFinset.1 hm) z (List.mem_toFinset.1 (hfm z e))).symm

/-- Running sums over the partitions. -/
theorem fold_val (f : Nat → ℝ) (step : Out → Nat → Out) (h : ∀ acc p, (step acc p).val = acc.val + f p) : ∀ (n : Nat) (acc : Out),
    ((List.range n).foldl step acc).val = acc.val + ∑ p ∈ Finset.range n, f p
  | 0, acc => by simp
  | n + 1, acc => by
    rw [List.range_succ, List.foldl_append, List.foldl_cons, List.foldl_nil, h, fold_val f step h n, Finset.sum_range_succ]
    ring

/-- The stored gradient of row `r` under an assignment. -/
def gain {nR nC : Nat} (d : Fin nR → Fin nC → ℝ) (a : Fin (nR + nC) → Fin (nR + nC)) (r : Fin nR) : ℝ := match MurtyBlockProps.read a r with | some c => d r c | none => 0

section
variable (Q : ∀ n, Murty.PQ ℝ n) (big : ℝ) (fuel : Nat) (Lg : Fin nM → Fin nZ → ℝ) (dl dp : Fin nM → Fin nZ → ℝ) (pd : Fin nM → ℝ) (clut : Fin nZ → ℝ) (o : Obj nM nZ) (acc : Out) (p : Nat)

/-- One partition without entries. -/
theorem part_zero (dl dp : Fin nM → Fin nZ → Option ℝ) (hpd : ∀ m, (RFSLik.logEntry (pd m)).unbotD 0 = Real.log (pd m)) (hcl : ∀ z, -1000 ≤ clut z) (hz : o.zero = some p) :
    ceresPart Q big fuel Lg dl dp pd clut o acc p =
      some { acc with val := acc.val + (((o.I p).map fun r => Real.log (pd r)).sum + ((o.J p).map clut).sum) } := by
  have hcl' : ∀ z, max (clut z) (-1000) = clut z := fun z => max_eq_left (hcl z)
  unfold ceresPart
  simp only
  rw [if_pos (by simp [getPartition, hz])]
  simp only [hpd, hcl']
  rfl

/-- One partition with entries. -/
theorem part_out (hpd : ∀ m, (RFSLik.logEntry (pd m)).unbotD 0 = Real.log (pd m)) (hcl : ∀ z, -1000 ≤ clut z) (hz : o.zero ≠ some p)
    {a0 : Fin ((o.I p).length + (o.J p).length) → Fin ((o.I p).length + (o.J p).length)} {s0 : ℝ}
    {l : List ((Fin ((o.I p).length + (o.J p).length) → Fin ((o.I p).length + (o.J p).length)) × ℝ)}
    (e1 : results (Q ((o.I p).length + (o.J p).length)) (fun i j => max (Lg ((o.I p).get i) ((o.J p).get j)) (-1000)) (-1000) big fuel = some ((a0, s0), l)) (e2 : -1000 < s0) :
    ceresPart Q big fuel Lg (fun m z => some (dl m z)) (fun m z => some (dp m z)) pd clut o acc p =
      some ⟨acc.val + (((o.I p).map fun r => Real.log (pd r)).sum + ((o.J p).map clut).sum + Real.log (Real.exp s0 + (l.map fun x => Real.exp x.2).sum)),
        fun m => acc.seg m + ∑ i : Fin (o.I p).length, if ((o.I p).get i).val = m then
          rowGrad s0 (gain (fun i j => dl ((o.I p).get i) ((o.J p).get j)) a0 i)
            (l.map fun x => (gain (fun i j => dl ((o.I p).get i) ((o.J p).get j)) x.1 i - gain (fun i j => dl ((o.I p).get i) ((o.J p).get j)) a0 i, x.2)) else 0,
        acc.pose + poseGrad s0 (gain (fun i j => dp ((o.I p).get i) ((o.J p).get j)) a0)
          (l.map fun x => ((fun i => gain (fun i j => dp ((o.I p).get i) ((o.J p).get j)) x.1 i - gain (fun i j => dp ((o.I p).get i) ((o.J p).get j)) a0 i), x.2))⟩ := by
  have hcl' : ∀ z, max (clut z) (-1000) = clut z := fun z => max_eq_left (hcl z)
  unfold ceresPart
  simp only
  rw [if_neg (by simp [getPartition, hz])]
  show ceresBlock Q big fuel Lg (fun m z => some (dl m z)) (fun m z => some (dp m z)) (o.I p) (o.J p)
    (((o.I p).map fun r => (RFSLik.logEntry (pd r)).unbotD 0).sum + ((o.J p).map fun c => max (clut c) (-1000)).sum) acc = _
  unfold ceresBlock
  rw [e1, Option.bind_some, allDiffs_some, Option.bind_some, allDiffs_some, Option.bind_some, firsts_some _ _ _ _ e2, Option.bind_some, firsts_some _ _ _ _ e2, Option.map_some]
  simp only [hpd, hcl', partVal_eq, List.map_map]
  rfl

end

open Classical in
/-- **C116** (partial): without known associations, the value is the sum of the logarithms of the detection probabilities and of the clutter terms, plus one logarithm for each partition, minus the integral
of the clutter intensity. The numbers of which logarithms are taken are, for a partition without entries, 1, and for another one at most the sum over its associations of the products of likelihood ratios plus
`err`, and at least the greatest sum of 201 of these products, up to the factor `exp(n 1e-12)` and `err`. By `total_ratio` this would be the logarithm of the likelihood if the first sum were that of the
logarithms of the probabilities of a missed detection (`C116_violated`). -/
theorem C116_value_partial (Lg : Fin nM → Fin nZ → ℝ) (dl dp : Fin nM → Fin nZ → ℝ) (pd : Fin nM → ℝ) (clut : Fin nZ → ℝ) (integral : ℝ) (Q : ∀ n, Murty.PQ ℝ n) (fuel ncc : Nat)
    (lab : Fin nM ⊕ Fin nZ → Nat) (hcomp : IsComponents Lg (-1000) ncc lab) (hi : ℝ) (hM : nM ≠ 0) (h0h : 0 ≤ hi) (hLg : ∀ m z, Lg m z ≤ hi)
    (hpd : ∀ m, Real.exp (-1000) ≤ pd m) (hcl : ∀ z, -1000 ≤ clut z)
    (hbig : (nM + nZ : ℕ) * hi + 2 * (nM + nZ : ℕ) * (1 / 10 ^ 12) < 1000) (hf : (nM + nZ) * (nM + nZ + 1) < fuel) :
    ∃ (out : Out) (P : Nat) (R : Nat → Finset (Fin nM)) (C : Nat → Finset (Fin nZ)) (v : Nat → ℝ),
      ceresLogLik Q 10000 fuel Lg (fun m z => some (dl m z)) (fun m z => some (dp m z)) pd clut integral ncc lab = some out ∧
      out.val = ∑ m, Real.log (pd m) + ∑ z, clut z + ∑ p ∈ Finset.range P, Real.log (v p) - integral ∧
      total (ratios Lg) (fun _ => 1) (fun _ => 1) = ∏ p ∈ Finset.range P, S (ratios Lg) (fun _ => 1) (fun _ => 1) (R p) (C p) ∧
      ∀ p < P, 0 < v p ∧ (v p = S (ratios Lg) (fun _ => 1) (fun _ => 1) (R p) (C p) ∨
        (v p ≤ S (ratios Lg) (fun _ => 1) (fun _ => 1) (R p) (C p) + err 201 ((R p).card + (C p).card) hi ∧
          ∀ T ⊆ Match (R p) (C p), T.card ≤ 201 →
            ∑ f ∈ T, (∏ m ∈ R p, rowW (ratios Lg) (fun _ => 1) f m) * ∏ z ∈ C p, colW (fun _ => 1) f z ≤ Real.exp (((R p).card + (C p).card : ℕ) * (1 / 10 ^ 12)) * v p +
              err 201 ((R p).card + (C p).card) hi)) := by
  obtain ⟨o, ho, htot, hsr, hsc, hb⟩ := decomp Lg (-1000) ncc lab hcomp (ratios Lg) (fun m z h => by unfold ratios; rw [if_neg h]) (fun _ => 1) (fun _ => 1)
  have hpd' : ∀ m, (RFSLik.logEntry (pd m)).unbotD 0 = Real.log (pd m) := fun m => by
    have h1 := lt_of_lt_of_le (Real.exp_pos _) (hpd m)
    have h2 : Real.exp (Real.log (pd m)) = pd m := Real.exp_log h1
    rw [← h2]
    rw [logEntry_exp _ ((Real.le_log_iff_exp_le h1).2 (hpd m)), Real.log_exp]
  let base : Nat → ℝ := fun p => ((o.I p).map fun r => Real.log (pd r)).sum + ((o.J p).map clut).sum
  have key : ∀ p, ∃ (v : ℝ) (sg : Nat → ℝ) (ps : ℝ), p < o.nP →
      (∀ acc, ceresPart Q 10000 fuel Lg (fun m z => some (dl m z)) (fun m z => some (dp m z)) pd clut o acc p =
        some ⟨acc.val + (base p + Real.log v), fun m => acc.seg m + sg m, acc.pose + ps⟩) ∧
      0 < v ∧ (v = S (ratios Lg) (fun _ => 1) (fun _ => 1) (o.I p).toFinset (o.J p).toFinset ∨
        (v ≤ S (ratios Lg) (fun _ => 1) (fun _ => 1) (o.I p).toFinset (o.J p).toFinset + err 201 ((o.I p).toFinset.card + (o.J p).toFinset.card) hi ∧
          ∀ T ⊆ Match (o.I p).toFinset (o.J p).toFinset, T.card ≤ 201 →
            ∑ f ∈ T, (∏ m ∈ (o.I p).toFinset, rowW (ratios Lg) (fun _ => 1) f m) * ∏ z ∈ (o.J p).toFinset, colW (fun _ => 1) f z ≤
              Real.exp (((o.I p).toFinset.card + (o.J p).toFinset.card : ℕ) * (1 / 10 ^ 12)) * v + err 201 ((o.I p).toFinset.card + (o.J p).toFinset.card) hi)) := by
    intro p
    by_cases hp : p < o.nP
    swap
    · exact ⟨0, fun _ => 0, 0, fun h => absurd h hp⟩
    obtain ⟨h1, h2, ⟨hz, hzr, -⟩ | ⟨hz, hr0, hc0, hrc⟩⟩ := hb p hp
    · refine ⟨1, fun _ => 0, 0, fun _ => ⟨fun acc => ?_, one_pos, Or.inl ?_⟩⟩
      · rw [part_zero Q 10000 fuel Lg pd clut o acc p _ _ hpd' hcl hz, Real.log_one]
        simp [base]
      · rw [S_zero]
        · simp
        · intro m hm z _
          unfold ratios
          rw [if_neg]
          intro h
          exact BatchLik.not_empty_of_linked Lg (-1000) m z h ((hzr m).1 (List.mem_toFinset.1 hm))
    · obtain ⟨a0, s0, l, e1, e2, -, e3, e4, e5⟩ := block_results Q fuel Lg hi h0h hLg hbig hf (o.I p) (o.J p) h1 h2 hr0 hc0 hrc
      exact ⟨_, _, _, fun _ => ⟨fun acc => part_out Q 10000 fuel Lg dl dp pd clut o acc p hpd' hcl hz e1 e2, e3, Or.inr ⟨e4, e5⟩⟩⟩
  choose v sg ps hv using key
  let step : Out → Nat → Out := fun acc p => ⟨acc.val + (base p + Real.log (v p)), fun m => acc.seg m + sg p m, acc.pose + ps p⟩
  have hfold := foldlM_some (ceresPart Q 10000 fuel Lg (fun m z => some (dl m z)) (fun m z => some (dp m z)) pd clut o) step (List.range o.nP) ⟨0, fun _ => 0, 0⟩
    (fun b p hp => (hv p (List.mem_range.1 hp)).1 b)
  refine ⟨{ (List.range o.nP).foldl step ⟨0, fun _ => 0, 0⟩ with val := ((List.range o.nP).foldl step ⟨0, fun _ => 0, 0⟩).val - integral }, o.nP, fun p => (o.I p).toFinset,
    fun p => (o.J p).toFinset, v, ?_, ?_, htot, fun p hp => (hv p hp).2⟩
  · unfold ceresLogLik
    rw [if_neg hM, ho, Option.bind_some, hfold, Option.map_some]
  · simp only
    rw [fold_val (fun p => base p + Real.log (v p)) step (fun _ _ => rfl), Finset.sum_add_distrib, hsr, hsc]
    simp only [base, Finset.sum_add_distrib]
    ring

example : IsComponents (fun (_ _ : Fin 2) => (1 / 2 : ℝ)) (-1000) 1 (fun _ => 0) ∧ Real.exp (-1000) ≤ (1 / 2 : ℝ) ∧
    (((2 + 2 : ℕ) : ℝ) * (1 / 2) + 2 * ((2 + 2 : ℕ) : ℝ) * (1 / 10 ^ 12) < 1000) := by
  have h1 : (1 : ℝ) + 1000 ≤ Real.exp 1000 := by have := Real.add_one_le_exp (1000 : ℝ); linarith
  refine ⟨two_by_two _ _ (by norm_num), ?_, by norm_num⟩
  rw [Real.exp_neg, inv_le_comm₀ (Real.exp_pos _) (by norm_num)]
  linarith

/-- A landmark with detection probability 9/10 and an empty scan: the value is `log(9/10)`, where the logarithm of the likelihood is `log(1/10)`. -/
theorem C116_violated (Q : ∀ n, Murty.PQ ℝ n) (fuel ncc : Nat) (lab : Fin 1 ⊕ Fin 0 → Nat)
    (hcomp : IsComponents (fun (_ : Fin 1) (z : Fin 0) => (z.elim0 : ℝ)) (-1000) ncc lab) (hf : 2 < fuel) :
    ∃ out, ceresLogLik Q 10000 fuel (fun (_ : Fin 1) (z : Fin 0) => (z.elim0 : ℝ)) (fun _ z => z.elim0) (fun _ z => z.elim0) (fun _ => 9 / 10) (fun z => z.elim0) 0 ncc lab = some out ∧
      out.val = Real.log (9 / 10) ∧ Real.log (total (fun (_ : Fin 1) (z : Fin 0) => (z.elim0 : ℝ)) (fun _ => 1 - 9 / 10) (fun z => z.elim0)) - 0 = Real.log (1 / 10) ∧
      out.val ≠ Real.log (1 / 10) := by
  have h910 : Real.exp (-1000) ≤ 9 / 10 := by
    have h1 : (1 : ℝ) + 1000 ≤ Real.exp 1000 := by have := Real.add_one_le_exp (1000 : ℝ); linarith
    rw [Real.exp_neg, inv_le_comm₀ (Real.exp_pos _) (by norm_num)]
    linarith
  have hpd' : (RFSLik.logEntry (9 / 10)).unbotD 0 = Real.log (9 / 10) := by
    have h2 : Real.exp (Real.log (9 / 10)) = 9 / 10 := Real.exp_log (by norm_num)
    rw [← h2, logEntry_exp _ ((Real.le_log_iff_exp_le (by norm_num)).2 h910), Real.log_exp]
  obtain ⟨o, ho, -, hsr, -, hb⟩ := decomp _ (-1000) ncc lab hcomp (fun _ z => z.elim0) (fun m z => z.elim0) (fun _ => 1) (fun z => z.elim0)
  let step : Out → Nat → Out := fun acc p => { acc with val := acc.val + (((o.I p).map fun _ => Real.log (9 / 10)).sum + ((o.J p).map fun z => (z.elim0 : ℝ)).sum) }
  have hfold := foldlM_some (ceresPart Q 10000 fuel (fun (_ : Fin 1) (z : Fin 0) => (z.elim0 : ℝ)) (fun _ z => z.elim0) (fun _ z => z.elim0) (fun _ => 9 / 10) (fun z => z.elim0) o) step
    (List.range o.nP) ⟨0, fun _ => 0, 0⟩ (fun b p hp => by
      obtain ⟨-, -, ⟨hz, -, -⟩ | ⟨-, -, hc0, -⟩⟩ := hb p (List.mem_range.1 hp)
      · exact part_zero Q 10000 fuel _ (fun _ => 9 / 10) (fun z => z.elim0) o b p _ _ (fun _ => hpd') (fun z => z.elim0) hz
      · obtain ⟨j, -⟩ := List.exists_mem_of_ne_nil _ hc0
        exact j.elim0)
  have hJ : ∀ p, o.J p = [] := fun p => List.eq_nil_iff_forall_not_mem.2 fun j => j.elim0
  have hval : (((List.range o.nP).foldl step ⟨0, fun _ => 0, 0⟩).val - 0) = Real.log (9 / 10) := by
    rw [fold_val (fun p => ((o.I p).map fun _ => Real.log (9 / 10)).sum + ((o.J p).map fun z => (z.elim0 : ℝ)).sum) step (fun _ _ => rfl)]
    have := hsr fun _ => Real.log (9 / 10)
    simp only [hJ, List.map_nil, List.sum_nil, add_zero]
    rw [← this]
    simp
  refine ⟨{ (List.range o.nP).foldl step ⟨0, fun _ => 0, 0⟩ with val := ((List.range o.nP).foldl step ⟨0, fun _ => 0, 0⟩).val - 0 }, ?_, hval, ?_, ?_⟩
  · unfold ceresLogLik
    rw [if_neg (by decide), ho, Option.bind_some, hfold, Option.map_some]
  · rw [total_zero _ _ _ (fun m z => z.elim0)]
    norm_num
  · simp only [hval]
    intro h
    have := Real.log_injOn_pos (by norm_num : (0 : ℝ) < 9 / 10) (by norm_num : (0 : ℝ) < 1 / 10) h
    norm_num at this

/-! ### C117: gradient of RFSCeresSLAM -/

/-- Score of an assignment when the entries of the table are functions of a parameter. -/
noncomputable def score {nR nC : Nat} (E : Fin nR → Fin nC → ℝ → ℝ) (a : Fin (nR + nC) → Fin (nR + nC)) (θ : ℝ) : ℝ :=
  ∑ x, MurtyLik.extMatrix (fun r c => E r c θ) (fun _ => 0) (fun _ => 0) (-1000) x (a x)

/-- Logarithm of the sum over the assignments of a list. -/
noncomputable def logSum {nR nC : Nat} (E : Fin nR → Fin nC → ℝ → ℝ) (l : List (Fin (nR + nC) → Fin (nR + nC))) (θ : ℝ) : ℝ :=
  Real.log (l.map fun a => Real.exp (score E a θ)).sum

theorem score_deriv {nR nC : Nat} (E : Fin nR → Fin nC → ℝ → ℝ) (d : Fin nR → Fin nC → ℝ) (a : Fin (nR + nC) → Fin (nR + nC)) (θ : ℝ) (h : ∀ r c, HasDerivAt (E r c) (d r c) θ) :
    HasDerivAt (score E a) (∑ r, gain d a r) θ := by
  unfold score
  have h1 : ∀ x : Fin (nR + nC), HasDerivAt (fun θ => MurtyLik.extMatrix (fun r c => E r c θ) (fun _ => 0) (fun _ => 0) (-1000) x (a x))
      (if hx : x.val < nR then gain d a ⟨x.val, hx⟩ else 0) θ := by
    intro x
    unfold MurtyLik.extMatrix
    by_cases hx : x.val < nR
    · simp only [hx, dif_pos]
      have e : Fin.castAdd nC (⟨x.val, hx⟩ : Fin nR) = x := rfl
      unfold gain MurtyBlockProps.read
      simp only [e]
      by_cases hc : (a x).val < nC
      · simp only [hc, dif_pos]
        exact h _ _
      · simp only [hc, dif_neg, not_false_iff]
        exact hasDerivAt_const _ _
    · simp only [hx, dif_neg, not_false_iff]
      exact hasDerivAt_const _ _
  have h2 := HasDerivAt.fun_sum (u := Finset.univ) fun x _ => h1 x
  refine h2.congr_deriv ?_
  rw [Fin.sum_univ_add]
  have h3 : ∀ j : Fin nC, (if hx : (Fin.natAdd nR j).val < nR then gain d a ⟨(Fin.natAdd nR j).val, hx⟩ else 0) = 0 := fun j => dif_neg (by simp)
  have h4 : ∀ i : Fin nR, (if hx : (Fin.castAdd nC i).val < nR then gain d a ⟨(Fin.castAdd nC i).val, hx⟩ else 0) = gain d a i := fun i => dif_pos (by exact i.2)
  simp only [h3, h4, Finset.sum_const_zero, add_zero]

/-- Derivative of the logarithm of a sum of exponentials. -/
theorem logSum_deriv {nR nC : Nat} (E : Fin nR → Fin nC → ℝ → ℝ) (d : Fin nR → Fin nC → ℝ) (a0 : Fin (nR + nC) → Fin (nR + nC)) (l : List (Fin (nR + nC) → Fin (nR + nC))) (θ : ℝ)
    (h : ∀ r c, HasDerivAt (E r c) (d r c) θ) : HasDerivAt (logSum E (a0 :: l))
      ((l.map fun a => ((∑ r, gain d a r) - ∑ r, gain d a0 r) * Real.exp (score E a θ - score E a0 θ)).sum / (1 + (l.map fun a => Real.exp (score E a θ - score E a0 θ)).sum) +
        ∑ r, gain d a0 r) θ := by
  unfold logSum
  have hsum : ∀ l : List (Fin (nR + nC) → Fin (nR + nC)), HasDerivAt (fun θ => (l.map fun a => Real.exp (score E a θ)).sum)
      (l.map fun a => Real.exp (score E a θ) * ∑ r, gain d a r).sum θ := by
    intro l
    induction l with
    | nil => simpa using hasDerivAt_const θ (0 : ℝ)
    | cons a l ih =>
      simp only [List.map_cons, List.sum_cons]
      exact (score_deriv E d a θ h).exp.add ih
  have hnn : ∀ l : List (Fin (nR + nC) → Fin (nR + nC)), 0 ≤ (l.map fun a => Real.exp (score E a θ - score E a0 θ)).sum := fun l => List.sum_nonneg fun x hx => by
    obtain ⟨a, -, rfl⟩ := List.mem_map.1 hx
    exact (Real.exp_pos _).le
  have hshift : ∀ (l : List (Fin (nR + nC) → Fin (nR + nC))) (g : (Fin (nR + nC) → Fin (nR + nC)) → ℝ),
      (l.map fun a => Real.exp (score E a θ) * g a).sum = Real.exp (score E a0 θ) * (l.map fun a => g a * Real.exp (score E a θ - score E a0 θ)).sum := by
    intro l g
    rw [← List.sum_map_mul_left]
    congr 1
    refine List.map_congr_left fun a _ => ?_
    rw [Real.exp_sub]
    have := (Real.exp_pos (score E a0 θ)).ne'
    field_simp
  have hshift1 : ∀ l : List (Fin (nR + nC) → Fin (nR + nC)),
      (l.map fun a => Real.exp (score E a θ)).sum = Real.exp (score E a0 θ) * (l.map fun a => Real.exp (score E a θ - score E a0 θ)).sum := by
    intro l
    have := hshift l fun _ => 1
    simpa using this
  have hpos : 0 < ((a0 :: l).map fun a => Real.exp (score E a θ)).sum := by
    rw [hshift1, List.map_cons, List.sum_cons, sub_self, Real.exp_zero]
    have := hnn l
    have := Real.exp_pos (score E a0 θ)
    positivity
  have hd := (hsum (a0 :: l)).log hpos.ne'
  refine hd.congr_deriv ?_
  rw [hshift1, hshift, mul_div_mul_left _ _ (Real.exp_pos _).ne', List.map_cons, List.map_cons, List.sum_cons, List.sum_cons, sub_self, Real.exp_zero, mul_one]
  have hne : 1 + (l.map fun a => Real.exp (score E a θ - score E a0 θ)).sum ≠ 0 := by have := hnn l; positivity
  rw [div_add' _ _ _ hne]
  congr 1
  have : ∀ l : List (Fin (nR + nC) → Fin (nR + nC)), (l.map fun a => ((∑ r, gain d a r) - ∑ r, gain d a0 r) * Real.exp (score E a θ - score E a0 θ)).sum =
      (l.map fun a => (∑ r, gain d a r) * Real.exp (score E a θ - score E a0 θ)).sum - (∑ r, gain d a0 r) * (l.map fun a => Real.exp (score E a θ - score E a0 θ)).sum := by
    intro l
    induction l with
    | nil => simp
    | cons a l ih =>
      simp only [List.map_cons, List.sum_cons, ih]
      ring
  rw [this]
  ring

open Classical in
/-- **C117** (partial), landmarks: for a partition with entries, without known associations, the increment of the segment of a row is the derivative of the value of the partition with respect to the coordinate
of this landmark. `E m z`: entry of the table as a function of the coordinate of landmark `m`, `dl m z`: the stored gradient. Missing: the pose (`C117_pose_violated`), and the segment is that of the place of the
landmark among those in view (`C118_violated`). -/
theorem C117_landmark_partial (Q : ∀ n, Murty.PQ ℝ n) (fuel : Nat) (Lg : Fin nM → Fin nZ → ℝ) (dl dp : Fin nM → Fin nZ → ℝ) (pd : Fin nM → ℝ) (clut : Fin nZ → ℝ) (o : Obj nM nZ) (acc : Out) (p : Nat)
    (hi : ℝ) (h0h : 0 ≤ hi) (hLg : ∀ m z, Lg m z ≤ hi) (hpd : ∀ m, Real.exp (-1000) ≤ pd m) (hcl : ∀ z, -1000 ≤ clut z)
    (hbig : (nM + nZ : ℕ) * hi + 2 * (nM + nZ : ℕ) * (1 / 10 ^ 12) < 1000) (hf : (nM + nZ) * (nM + nZ + 1) < fuel) (hz : o.zero ≠ some p)
    (hr : (o.I p).Nodup) (hc : (o.J p).Nodup) (hr0 : o.I p ≠ []) (hc0 : o.J p ≠ []) (hlink : ∀ i ∈ o.I p, ∀ j ∈ o.J p, Linked Lg (-1000) (.inl i) (.inr j))
    (E : Fin nM → Fin nZ → ℝ → ℝ) (θ : Fin nM → ℝ) (hE : ∀ m ∈ o.I p, ∀ z ∈ o.J p, E m z (θ m) = max (Lg m z) (-1000) ∧ HasDerivAt (E m z) (dl m z) (θ m)) :
    ∃ (out : Out) (l : List (Fin ((o.I p).length + (o.J p).length) → Fin ((o.I p).length + (o.J p).length))),
      ceresPart Q 10000 fuel Lg (fun m z => some (dl m z)) (fun m z => some (dp m z)) pd clut o acc p = some out ∧
      ∀ i : Fin (o.I p).length,
        -- the value of the partition as a function of the coordinate of the landmark
        let V : ℝ → ℝ := fun t => ((o.I p).map fun r => Real.log (pd r)).sum + ((o.J p).map clut).sum +
          logSum (fun r c t => if r = i then E ((o.I p).get r) ((o.J p).get c) t else max (Lg ((o.I p).get r) ((o.J p).get c)) (-1000)) l t
        out.val = acc.val + V (θ ((o.I p).get i)) ∧ HasDerivAt V (out.seg ((o.I p).get i) - acc.seg ((o.I p).get i)) (θ ((o.I p).get i)) := by
  have hpd' : ∀ m, (RFSLik.logEntry (pd m)).unbotD 0 = Real.log (pd m) := fun m => by
    have h1 := lt_of_lt_of_le (Real.exp_pos _) (hpd m)
    have h2 : Real.exp (Real.log (pd m)) = pd m := Real.exp_log h1
    rw [← h2]
    rw [logEntry_exp _ ((Real.le_log_iff_exp_le h1).2 (hpd m)), Real.log_exp]
  obtain ⟨a0, s0, l, e1, e2, e3, -⟩ := block_results Q fuel Lg hi h0h hLg hbig hf (o.I p) (o.J p) hr hc hr0 hc0 hlink
  refine ⟨_, a0 :: l.map Prod.fst, part_out Q 10000 fuel Lg dl dp pd clut o acc p hpd' hcl hz e1 e2, fun i => ?_⟩
  intro V
  set E' : Fin (o.I p).length → Fin (o.J p).length → ℝ → ℝ := fun r c t => if r = i then E ((o.I p).get r) ((o.J p).get c) t else max (Lg ((o.I p).get r) ((o.J p).get c)) (-1000) with hE'
  set d' : Fin (o.I p).length → Fin (o.J p).length → ℝ := fun r c => if r = i then dl ((o.I p).get r) ((o.J p).get c) else 0 with hd'
  have hEv : ∀ r c, E' r c (θ ((o.I p).get i)) = max (Lg ((o.I p).get r) ((o.J p).get c)) (-1000) := by
    intro r c
    simp only [hE']
    split
    · rename_i h; subst h; exact (hE _ (List.get_mem _ _) _ (List.get_mem _ _)).1
    · rfl
  have hEd : ∀ r c, HasDerivAt (E' r c) (d' r c) (θ ((o.I p).get i)) := by
    intro r c
    simp only [hE', hd']
    by_cases h : r = i
    · subst h
      simp only [if_true]
      exact (hE _ (List.get_mem _ _) _ (List.get_mem _ _)).2
    · simp only [h, if_false]
      exact hasDerivAt_const _ _
  have hsc : ∀ x ∈ (a0, s0) :: l, score E' x.1 (θ ((o.I p).get i)) = x.2 := by
    intro x hx
    unfold score
    rw [e3 x hx]
    simp only [hEv]
  have hs0 : score E' a0 (θ ((o.I p).get i)) = s0 := hsc _ (List.mem_cons_self ..)
  have hgain : ∀ a, ∑ r, gain d' a r = gain (fun i j => dl ((o.I p).get i) ((o.J p).get j)) a i := by
    intro a
    rw [Finset.sum_eq_single i]
    · unfold gain
      simp only [hd', if_true]
    · intro r _ hri
      unfold gain
      simp only [hd', hri, if_false]
      split <;> rfl
    · intro h; exact absurd (Finset.mem_univ _) h
  constructor
  · simp only [V]
    unfold logSum
    rw [← hE']
    congr 3
    rw [List.map_cons, List.sum_cons, hs0, List.map_map]
    congr 2
    exact List.map_congr_left fun x hx => by rw [Function.comp, hsc x (List.mem_cons_of_mem _ hx)]
  · simp only [V]
    have h1 := (logSum_deriv E' d' a0 (l.map Prod.fst) (θ ((o.I p).get i)) hEd).const_add (((o.I p).map fun r => Real.log (pd r)).sum + ((o.J p).map clut).sum)
    have h2 : ∀ k : Fin (o.I p).length, ((o.I p).get k).val = ((o.I p).get i).val ↔ k = i := fun k =>
      ⟨fun h => (List.nodup_iff_injective_get.1 hr) (Fin.ext h), fun h => by rw [h]⟩
    refine h1.congr_deriv ?_
    symm
    simp only [h2, Finset.sum_ite_eq', Finset.mem_univ, if_true, add_sub_cancel_left]
    unfold rowGrad
    simp only [List.map_map, hs0, hgain]
    congr 2
    · congr 1
      refine List.map_congr_left fun x hx => ?_
      simp only [Function.comp, hsc x (List.mem_cons_of_mem _ hx)]
    · congr 2
      refine List.map_congr_left fun x hx => ?_
      simp only [Function.comp, hsc x (List.mem_cons_of_mem _ hx)]

open Classical in
/-- **C117** (partial), pose: the increment of the pose gradient differs from the gradient `g0` of the first assignment by `R` times what the derivative of the value of the partition differs from it by. `R` is the
sum over the assignments found of their weights divided by that of the first, so that it is greater than 1. Missing: the division by `R`, without which the increment is not the derivative
(`C117_pose_violated`). -/
theorem C117_pose_partial (Q : ∀ n, Murty.PQ ℝ n) (fuel : Nat) (Lg : Fin nM → Fin nZ → ℝ) (dl dp : Fin nM → Fin nZ → ℝ) (pd : Fin nM → ℝ) (clut : Fin nZ → ℝ) (o : Obj nM nZ) (acc : Out) (p : Nat)
    (hi : ℝ) (h0h : 0 ≤ hi) (hLg : ∀ m z, Lg m z ≤ hi) (hpd : ∀ m, Real.exp (-1000) ≤ pd m) (hcl : ∀ z, -1000 ≤ clut z)
    (hbig : (nM + nZ : ℕ) * hi + 2 * (nM + nZ : ℕ) * (1 / 10 ^ 12) < 1000) (hf : (nM + nZ) * (nM + nZ + 1) < fuel) (hz : o.zero ≠ some p)
    (hr : (o.I p).Nodup) (hc : (o.J p).Nodup) (hr0 : o.I p ≠ []) (hc0 : o.J p ≠ []) (hlink : ∀ i ∈ o.I p, ∀ j ∈ o.J p, Linked Lg (-1000) (.inl i) (.inr j))
    (E : Fin nM → Fin nZ → ℝ → ℝ) (θ : ℝ) (hE : ∀ m ∈ o.I p, ∀ z ∈ o.J p, E m z θ = max (Lg m z) (-1000) ∧ HasDerivAt (E m z) (dp m z) θ) :
    ∃ (out : Out) (a0 : Fin ((o.I p).length + (o.J p).length) → Fin ((o.I p).length + (o.J p).length)) (l : List (Fin ((o.I p).length + (o.J p).length) → Fin ((o.I p).length + (o.J p).length))),
      ceresPart Q 10000 fuel Lg (fun m z => some (dl m z)) (fun m z => some (dp m z)) pd clut o acc p = some out ∧
        let E' : Fin (o.I p).length → Fin (o.J p).length → ℝ → ℝ := fun r c => E ((o.I p).get r) ((o.J p).get c)
        let V : ℝ → ℝ := fun t => ((o.I p).map fun r => Real.log (pd r)).sum + ((o.J p).map clut).sum + logSum E' (a0 :: l) t
        let g0 := ∑ r, gain (fun i j => dp ((o.I p).get i) ((o.J p).get j)) a0 r
        let R := 1 + (l.map fun a => Real.exp (score E' a θ - score E' a0 θ)).sum
        out.val = acc.val + V θ ∧ HasDerivAt V ((out.pose - acc.pose - g0) / R + g0) θ := by
  have hpd' : ∀ m, (RFSLik.logEntry (pd m)).unbotD 0 = Real.log (pd m) := fun m => by
    have h1 := lt_of_lt_of_le (Real.exp_pos _) (hpd m)
    have h2 : Real.exp (Real.log (pd m)) = pd m := Real.exp_log h1
    rw [← h2]
    rw [logEntry_exp _ ((Real.le_log_iff_exp_le h1).2 (hpd m)), Real.log_exp]
  obtain ⟨a0, s0, l, e1, e2, e3, -⟩ := block_results Q fuel Lg hi h0h hLg hbig hf (o.I p) (o.J p) hr hc hr0 hc0 hlink
  refine ⟨_, a0, l.map Prod.fst, part_out Q 10000 fuel Lg dl dp pd clut o acc p hpd' hcl hz e1 e2, ?_⟩
  intro E' V g0 R
  have hsc : ∀ x ∈ (a0, s0) :: l, score E' x.1 θ = x.2 := by
    intro x hx
    unfold score
    rw [e3 x hx]
    refine Finset.sum_congr rfl fun _ _ => ?_
    congr 1
    funext r c
    exact (hE _ (List.get_mem _ _) _ (List.get_mem _ _)).1
  have hs0 : score E' a0 θ = s0 := hsc _ (List.mem_cons_self ..)
  constructor
  · simp only [V]
    unfold logSum
    congr 3
    rw [List.map_cons, List.sum_cons, hs0, List.map_map]
    congr 2
    exact List.map_congr_left fun x hx => by rw [Function.comp, hsc x (List.mem_cons_of_mem _ hx)]
  · have h1 := (logSum_deriv E' (fun i j => dp ((o.I p).get i) ((o.J p).get j)) a0 (l.map Prod.fst) θ
      (fun r c => (hE _ (List.get_mem _ _) _ (List.get_mem _ _)).2)).const_add (((o.I p).map fun r => Real.log (pd r)).sum + ((o.J p).map clut).sum)
    refine h1.congr_deriv ?_
    symm
    simp only [R, g0, add_sub_cancel_left]
    unfold poseGrad
    simp only [List.map_map, add_sub_cancel_right]
    congr 2
    congr 1
    refine List.map_congr_left fun x hx => ?_
    simp only [Function.comp, hsc x (List.mem_cons_of_mem _ hx), hs0, Finset.sum_sub_distrib]

/-- The hypotheses of the two theorems: two landmarks, two measurements, entries `θ` at `θ = 1/2`. -/
example : (∀ i ∈ ([0, 1] : List (Fin 2)), ∀ j ∈ ([0, 1] : List (Fin 2)), Linked (fun (_ _ : Fin 2) => (1 / 2 : ℝ)) (-1000) (.inl i) (.inr j)) ∧
    (id (1 / 2 : ℝ) = max (1 / 2) (-1000) ∧ HasDerivAt (fun t : ℝ => t) 1 (1 / 2)) ∧
    (∃ o, partition 1 (fun (_ : Fin 2 ⊕ Fin 2) => 0) none = some o ∧ (o.nP, o.I 0, o.J 0, o.zero) = (1, [0, 1], [0, 1], none)) := by
  refine ⟨fun i _ j _ => ?_, ⟨by norm_num, hasDerivAt_id (1 / 2 : ℝ)⟩, ?_⟩
  · exact .col i j _ (by norm_num) (.refl _)
  · have h : (partition 1 (fun (_ : Fin 2 ⊕ Fin 2) => 0) none).map (fun o => (o.nP, o.I 0, o.J 0, o.zero)) = some (1, [0, 1], [0, 1], none) := by decide +kernel
    exact Option.map_eq_some_iff.1 h

/-- Associations of one landmark and one measurement. -/
theorem one_one (A : Fin 1 → Option (Fin 1)) : A = (fun _ => none) ∨ A = fun _ => some 0 := by
  cases h : A 0 with
  | none => exact Or.inl (funext fun i => by rw [Subsingleton.elim i 0, h])
  | some z => exact Or.inr (funext fun i => by rw [Subsingleton.elim i 0, h, Subsingleton.elim z 0])

/-- **C117**, the pose, fails: with one landmark, one measurement and a likelihood ratio `e^θ`, the value is that of `log(1 + e^θ)` up to a constant and the tolerance, and the derivative of the latter at 0 is
1/2. The gradient returned is within 1/4 of 0 or of 1. -/
theorem C117_pose_violated (Q : ∀ n, Murty.PQ ℝ n) (fuel : Nat) (hf : 6 < fuel) :
    ∃ out, ceresLogLik Q 10000 fuel (fun (_ _ : Fin 1) => (0 : ℝ)) (fun _ _ => some 1) (fun _ _ => some 1) (fun _ => 1 / 2) (fun _ => 0) 0 1 (fun _ => 0) = some out ∧
      HasDerivAt (fun θ : ℝ => Real.log (1 + Real.exp θ)) (1 / 2) 0 ∧ (|out.pose| < 1 / 4 ∨ |out.pose - 1| < 1 / 4) ∧ out.pose ≠ 1 / 2 := by
  have hRg : Ranges (fun (_ _ : Fin 1) => max (0 : ℝ) (-1000)) (fun _ => 0) (fun _ => 0) (-1000) 10000 0 0 :=
    ⟨by norm_num, by norm_num, fun _ _ => ⟨le_max_right _ _, by norm_num⟩, fun _ => ⟨le_rfl, le_rfl⟩, fun _ => ⟨le_rfl, le_rfl⟩, by norm_num, le_rfl, le_rfl, by norm_num⟩
  obtain ⟨L, a0, s0, res, ext, hnd, -, hall, hres, hmap, hext, hlen, hs0⟩ := results_spec (Q (1 + 1)) hRg fuel (by omega) (by norm_num)
  have hval : ∀ A : Fin 1 → Option (Fin 1), value (fun (_ _ : Fin 1) => max (0 : ℝ) (-1000)) (fun _ => 0) (fun _ => 0) A = 0 := by
    intro A
    unfold value
    rcases one_one A with rfl | rfl <;> simp
  have hmem : ∀ A : Fin 1 → Option (Fin 1), A ∈ L := fun A => hall A (fun i j k _ _ => Subsingleton.elim _ _) (by rw [hval]; norm_num)
  have hL2 : L = [fun _ => none, fun _ => some 0] ∨ L = [fun _ => some 0, fun _ => none] := by
    have h1 : L.length = 2 := by
      rw [← List.toFinset_card_of_nodup hnd, Finset.eq_univ_of_forall fun A => List.mem_toFinset.2 (hmem A)]
      decide
    match L, h1 with
    | [A, B], _ =>
      rcases one_one A with rfl | rfl <;> rcases one_one B with rfl | rfl
      · simp at hnd
      · exact Or.inl rfl
      · exact Or.inr rfl
      · simp at hnd
  -- the two results
  obtain ⟨x, rfl, h0, hx, hx2, hg⟩ : ∃ x, res = [x] ∧ s0 = 0 ∧ x.2 = 0 ∧ True ∧
      (gain (fun _ _ => (1 : ℝ)) x.1 (0 : Fin 1) = 0 ∨ gain (fun _ _ => (1 : ℝ)) x.1 (0 : Fin 1) = 1) := by
    rcases hL2 with rfl | rfl <;> simp only [List.map_cons, List.map_nil, hval, List.take, List.cons.injEq, Prod.mk.injEq] at hmap <;> obtain ⟨⟨-, h0⟩, h1⟩ := hmap <;>
      (obtain ⟨x, rfl⟩ := List.length_eq_one_iff.1 (show res.length = 1 by simpa using congrArg List.length h1)
       simp only [List.map_cons, List.map_nil, List.cons.injEq, Prod.mk.injEq, and_true] at h1
       refine ⟨x, rfl, h0, h1.2, trivial, ?_⟩
       unfold gain
       rw [h1.1]
       simp)
  subst h0
  have hone : ∀ a : Fin (1 + 1) → Fin (1 + 1), 0 ≤ gain (fun (_ _ : Fin 1) => (1 : ℝ)) a 0 ∧ gain (fun (_ _ : Fin 1) => (1 : ℝ)) a 0 ≤ 1 := by
    intro a
    unfold gain
    split <;> norm_num
  have hpd' : (RFSLik.logEntry (1 / 2)).unbotD 0 = Real.log (1 / 2) := by
    have h2 : Real.exp (Real.log (1 / 2)) = 1 / 2 := Real.exp_log (by norm_num)
    rw [← h2, logEntry_exp _ _, Real.log_exp]
    rw [Real.le_log_iff_exp_le (by norm_num)]
    have h1 : (1 : ℝ) + 1000 ≤ Real.exp 1000 := by have := Real.add_one_le_exp (1000 : ℝ); linarith
    rw [Real.exp_neg, inv_le_comm₀ (Real.exp_pos _) (by norm_num)]
    linarith
  have ho : (partition 1 (fun (_ : Fin 1 ⊕ Fin 1) => 0) none).map (fun o => (o.nP, o.I 0, o.J 0, o.zero)) = some (1, [0], [0], none) := by decide +kernel
  obtain ⟨o, ho, hoo⟩ := Option.map_eq_some_iff.1 ho
  simp only [Prod.mk.injEq] at hoo
  obtain ⟨hP, hI, hJ, hzero⟩ := hoo
  have key : ∃ out, ceresPart Q 10000 fuel (fun (_ _ : Fin 1) => (0 : ℝ)) (fun _ _ => some 1) (fun _ _ => some 1) (fun _ => 1 / 2) (fun _ => 0) o ⟨0, fun _ => 0, 0⟩ 0 = some out ∧
      out.pose = gain (fun (_ _ : Fin 1) => (1 : ℝ)) x.1 0 +
        (ext.map fun y => (gain (fun (_ _ : Fin 1) => (1 : ℝ)) y.1 0 - gain (fun (_ _ : Fin 1) => (1 : ℝ)) a0 0) * Real.exp y.2).sum := by
    unfold ceresPart
    simp only
    rw [if_neg (by simp [getPartition, hzero])]
    show ∃ out, ceresBlock Q 10000 fuel (fun _ _ => 0) (fun _ _ => some 1) (fun _ _ => some 1) (o.I 0) (o.J 0)
      (((o.I 0).map fun r => (RFSLik.logEntry (1 / 2)).unbotD 0).sum + ((o.J 0).map fun c => max 0 (-1000)).sum) ⟨0, fun _ => 0, 0⟩ = some out ∧ _
    rw [hI, hJ]
    unfold ceresBlock
    have hres' : results (Q (([0] : List (Fin 1)).length + ([0] : List (Fin 1)).length)) (fun _ _ => max 0 (-1000)) (-1000) 10000 fuel = some ((a0, 0), [x] ++ ext) := hres
    rw [hres', Option.bind_some, allDiffs_some, Option.bind_some, Option.bind_some, firsts_some _ _ _ _ hs0, Option.bind_some, Option.map_some]
    refine ⟨_, rfl, ?_⟩
    show 0 + poseGrad _ _ _ = _
    unfold poseGrad
    simp only [List.map_map]
    show 0 + ((List.map _ ([x] ++ ext)).sum + _) = _
    rw [List.map_append, List.sum_append, List.map_cons, List.map_nil, List.sum_singleton]
    have e1 : ∀ f : Fin 1 → ℝ, ∑ r : Fin 1, f r = f 0 := fun f => Fin.sum_univ_one f
    have e2 : ∀ f : Fin ([0] : List (Fin 1)).length → ℝ, ∑ r, f r = f (0 : Fin 1) := e1
    simp only [Function.comp, e2, sub_zero, hx, Real.exp_zero, mul_one, zero_add]
    show (gain (fun (_ _ : Fin 1) => (1 : ℝ)) x.1 0 - gain (fun (_ _ : Fin 1) => (1 : ℝ)) a0 0) +
      (ext.map fun y => (gain (fun (_ _ : Fin 1) => (1 : ℝ)) y.1 0 - gain (fun (_ _ : Fin 1) => (1 : ℝ)) a0 0) * Real.exp y.2).sum + gain (fun (_ _ : Fin 1) => (1 : ℝ)) a0 0 = _
    ring
  obtain ⟨out, hout, hpose⟩ := key
  have hsmall : |(ext.map fun y => (gain (fun (_ _ : Fin 1) => (1 : ℝ)) y.1 0 - gain (fun (_ _ : Fin 1) => (1 : ℝ)) a0 0) * Real.exp y.2).sum| < 1 / 4 := by
    have h1 : ∀ l : List ((Fin (1 + 1) → Fin (1 + 1)) × ℝ), (∀ y ∈ l, y.2 ≤ -999) →
        |(l.map fun y => (gain (fun (_ _ : Fin 1) => (1 : ℝ)) y.1 0 - gain (fun (_ _ : Fin 1) => (1 : ℝ)) a0 0) * Real.exp y.2).sum| ≤ l.length * (1 / 1000) := by
      intro l hl
      induction l with
      | nil => simp
      | cons y l ih =>
        rw [List.map_cons, List.sum_cons, List.length_cons]
        refine (abs_add_le _ _).trans ?_
        have h3 := ih fun z hz => hl z (List.mem_cons_of_mem _ hz)
        have h4 : |gain (fun (_ _ : Fin 1) => (1 : ℝ)) y.1 0 - gain (fun (_ _ : Fin 1) => (1 : ℝ)) a0 0| ≤ 1 := by
          have a1 := hone y.1
          have a2 := hone a0
          rw [abs_le]; constructor <;> linarith
        have h5 : Real.exp y.2 ≤ 1 / 1000 := by
          refine (Real.exp_le_exp.2 (hl y (List.mem_cons_self ..))).trans ?_
          have : (1 : ℝ) + 999 ≤ Real.exp 999 := by have := Real.add_one_le_exp (999 : ℝ); linarith
          rw [Real.exp_neg, inv_le_comm₀ (Real.exp_pos _) (by norm_num)]
          linarith
        rw [abs_mul, abs_of_pos (Real.exp_pos y.2)]
        have h6 := mul_le_mul h4 h5 (Real.exp_pos _).le zero_le_one
        push_cast
        linarith
    have h2 := h1 ext fun y hy => (hext y hy).2.trans (by norm_num)
    have h3 : (ext.length : ℝ) ≤ 200 := by
      rw [List.length_append] at hlen
      exact_mod_cast (by omega : ext.length ≤ 200)
    linarith
  refine ⟨{ out with val := out.val - 0 }, ?_, ?_, ?_, ?_⟩
  · unfold ceresLogLik
    rw [if_neg (by decide), ho, Option.bind_some, hP, List.range_one, List.foldlM_cons, hout]
    rfl
  · have h1 : HasDerivAt (fun θ : ℝ => 1 + Real.exp θ) (Real.exp 0) 0 := (Real.hasDerivAt_exp 0).const_add 1
    have h2 := h1.log (by rw [Real.exp_zero]; norm_num)
    refine h2.congr_deriv ?_
    rw [Real.exp_zero]; norm_num
  · simp only [hpose]
    rcases hg with hg | hg <;> rw [hg]
    · left; rwa [zero_add]
    · right; rwa [add_sub_cancel_left]
  · simp only [hpose]
    rw [abs_lt] at hsmall
    intro h
    rcases hg with hg | hg <;> rw [hg] at h <;> linarith [hsmall.1, hsmall.2]

/-! ### C118: known associations in RFSCeresSLAM -/

/-- Measurements that may come from landmark `lm`: unknown ones and those known to come from it. -/
def Allowed (da : Int) (lm : Nat) : Prop := da = -1 ∨ da = lm

/-- **C118** (partial): if all the landmarks can be detected, the entry of a pair that contradicts the known association is -1000, and other entries do not depend on the known association. A measurement known to be
a false alarm has no landmark, and its clutter term is 0. Missing: landmarks that cannot be detected (`C118_violated`), and the gradient (`C118_throws`). -/
theorem C118_all_in_view_partial (pd : List ℝ) (hpd : ∀ x ∈ pd, 0 < x) (i : Fin (inView pd).length) (da : Int) (g c thr : ℝ) :
    (inView pd).length = pd.length ∧
      (¬ Allowed da ((inView pd).get i) → ceresEntry da i g (pd.getD ((inView pd).get i) 0) c thr = -1000) ∧
      (Allowed da ((inView pd).get i) → ceresEntry da i g (pd.getD ((inView pd).get i) 0) c thr = ceresEntry (-1) i g (pd.getD ((inView pd).get i) 0) c thr) ∧
      (∀ lm : Nat, ¬ Allowed (-2) lm) ∧ ∀ ci, ceresClutter (-2) ci = 0 := by
  have h : inView pd = List.range pd.length := by
    unfold inView
    rw [List.filter_eq_self]
    intro m hm
    rw [List.mem_range] at hm
    rw [decide_eq_true_eq, List.getD_eq_getElem?_getD, List.getElem?_eq_getElem hm, Option.getD_some]
    exact hpd _ (List.getElem_mem _)
  have hi : (inView pd).get i = i.val := by
    have h2 : i.val < pd.length := by
      have h3 : (inView pd).length = pd.length := by rw [h, List.length_range]
      omega
    have h1 : ∀ k < pd.length, (inView pd)[k]? = some k := fun k hk => by rw [h, List.getElem?_range hk]
    have h1 := h1 _ h2
    rw [List.getElem?_eq_getElem i.2] at h1
    exact Option.some.inj h1
  rw [hi]
  refine ⟨by rw [h, List.length_range], fun hn => ?_, fun ha => ?_, fun lm hl => ?_, fun ci => ?_⟩
  · unfold ceresEntry
    unfold Allowed at hn
    rw [if_pos ⟨fun e => hn (Or.inr e), fun e => hn (Or.inl e)⟩]
  · unfold ceresEntry
    rw [if_neg (show ¬ (da ≠ (i.val : Int) ∧ da ≠ -1) from fun hh => ha.elim hh.2 hh.1), if_neg (show ¬ ((-1 : Int) ≠ (i.val : Int) ∧ (-1 : Int) ≠ -1) from fun hh => hh.2 rfl)]
  · unfold Allowed at hl
    omega
  · simp [ceresClutter]

/-- If all the landmarks can be detected, the derivatives of an entry are stored just for the pairs that do not contradict the known association. -/
theorem C118_stored (da : Int) (i : Nat) (d : ℝ) : (Allowed da i → ceresStore da i d = some d) ∧ (¬ Allowed da i → ceresStore da i d = none) := by
  unfold Allowed ceresStore
  constructor
  · intro h
    rw [if_neg (by rintro ⟨h1, h2⟩; exact h.elim h2 h1)]
  · intro h
    rw [if_pos ⟨fun e => h (Or.inr e), fun e => h (Or.inl e)⟩]

example : (∀ x ∈ [(1 / 2 : ℝ), 9 / 10], 0 < x) ∧ ¬ Allowed 1 0 ∧ Allowed 1 1 ∧ ceresEntry 1 0 0 (1 / 2) 0 (-10) = -1000 := by
  refine ⟨by intro x hx; simp at hx; rcases hx with rfl | rfl <;> norm_num, by unfold Allowed; omega, Or.inr rfl, by simp [ceresEntry]⟩

/-- **C118** fails when a landmark before the one associated cannot be detected: the known association is compared with the place in the list of the landmarks in view. With landmark 0 not detectable,
landmark 1 is refused the measurement known to be of landmark 1, and accepts the one known to be of landmark 0. -/
theorem C118_violated : inView [0, 1 / 2] = [1] ∧
    Allowed 1 1 ∧ ceresEntry 1 0 0 (1 / 2) 0 (-10) = -1000 ∧ ceresEntry (-1) 0 0 (1 / 2) 0 (-10) = 0 ∧
    ¬ Allowed 0 1 ∧ ceresEntry 0 0 0 (1 / 2) 0 (-10) = 0 := by
  have h0 : (0 : ℝ) + Real.log (1 / 2) - Real.log (1 - 1 / 2) - 0 = 0 := by norm_num
  refine ⟨?_, Or.inr rfl, ?_, ?_, ?_, ?_⟩
  · simp [inView, List.range_succ, List.filter]
  · simp [ceresEntry]
  · unfold ceresEntry
    rw [if_neg (by decide)]
    simp only [h0]
    norm_num
  · unfold Allowed; omega
  · unfold ceresEntry
    rw [if_neg (by decide)]
    simp only [h0]
    norm_num

/-- **C118**: with measurement 0 known to come from landmark 0 and measurement 1 unknown, in one partition, the evaluation of the gradient ends in an exception: the assignments include pairs whose gradient was
never stored (line 969 skips them, `.at` is called for them at lines 1117 to 1149). Results of Murty's algorithm with a list for a queue. -/
theorem C118_throws : (results (K := ℚ) (nR := 2) (nC := 2) (MurtyProps.listPQ ℚ 4) ![![0, 0], ![-1000, 0]] (-1000) 10000 21).bind
      (fun r => allDiffs (fun i j => ceresStore (![(0 : Int), -1] j) i (1 : ℚ)) r.1.1 r.2) = none ∧
    (results (K := ℚ) (nR := 2) (nC := 2) (MurtyProps.listPQ ℚ 4) ![![0, 0], ![-1000, 0]] (-1000) 10000 21).isSome = true := by
  constructor <;> decide +kernel

end BatchLikProps
end RFS
