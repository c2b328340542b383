import Verif.Lemmas.LMBLoop
import Verif.Lemmas.Hypotheses

/-!
Specification and lemmas for the labelled multi-Bernoulli filter.

Specification: `mass E` is the total weight of the hypotheses (which tracks exist, which were missed, which measurement each of the others caused) for which
`E` holds; `post E` is the posterior probability of `E`.
-/

namespace RFS
namespace LMBProps
open GM GMB CBM Partition RFSLik Assoc PartitionProps RFSLikProps LMB

variable {d n nZ : Nat}

/-- Weight of a hypothesis: a track that does not exist contributes `1 - pe`, one that exists and was missed `pe (1 - pd)`, one that caused `z` the entry of
the likelihood table. -/
noncomputable def weight (L : Fin n → Fin nZ → ℝ) (pd pe : Fin n → ℝ) (h : Hyp n nZ) : ℝ :=
  ∏ m, match h m with
    | none => 1 - pe m
    | some none => pe m * (1 - pd m)
    | some (some z) => L m z

open Classical in
/-- Total weight of the hypotheses for which `E` holds. -/
noncomputable def mass (L : Fin n → Fin nZ → ℝ) (pd pe : Fin n → ℝ) (E : Hyp n nZ → Prop) : ℝ :=
  ∑ h ∈ (Finset.univ : Finset (Hyp n nZ)).filter fun h => h.Valid ∧ E h, weight L pd pe h

/-- Posterior probability of `E`. -/
noncomputable def post (L : Fin n → Fin nZ → ℝ) (pd pe : Fin n → ℝ) (E : Hyp n nZ → Prop) : ℝ := mass L pd pe E / mass L pd pe fun _ => True

/-! ### Events in terms of sums over associations -/

theorem weight_eq (L : Fin n → Fin nZ → ℝ) (pd pe : Fin n → ℝ) (h : Hyp n nZ) :
    weight L pd pe h = ∏ m, hypRow L (fun m => 1 - pe m) (fun m => pe m * (1 - pd m)) m (h m) := by
  unfold weight
  refine Finset.prod_congr rfl fun m _ => ?_
  cases h m with
  | none => rfl
  | some x => cases x <;> rfl

theorem mass_of (L : Fin n → Fin nZ → ℝ) (pd pe : Fin n → ℝ) (E : Hyp n nZ → Prop) (L2 : Fin n → Fin nZ → ℝ) (a2 b2 miss2 : Fin n → ℝ) (c2 : Fin nZ → ℝ)
    (hsum : ∀ m, a2 m + b2 m = miss2 m)
    (h2 : ∀ h : Hyp n nZ, (E h → (∏ m, hypRow L2 a2 b2 m (h m)) * (∏ z, open Classical in if ∃ m, h m = some (some z) then 1 else c2 z) = weight L pd pe h) ∧
      (¬ E h → (∏ m, hypRow L2 a2 b2 m (h m)) * (∏ z, open Classical in if ∃ m, h m = some (some z) then 1 else c2 z) = 0)) :
    mass L pd pe E = total L2 miss2 c2 := by
  classical
  rw [← (funext hsum : (fun m => a2 m + b2 m) = miss2), ← hypSum_eq]
  unfold mass hypSum
  rw [← Finset.filter_filter, Finset.sum_filter]
  refine Finset.sum_congr rfl fun h _ => ?_
  by_cases he : E h
  · rw [if_pos he, ← (h2 h).1 he]
  · rw [if_neg he, ← (h2 h).2 he]

theorem cols_one (h : Hyp n nZ) : (∏ z : Fin nZ, open Classical in if ∃ m, h m = some (some z) then (1 : ℝ) else (fun _ => 1) z) = 1 :=
  Finset.prod_eq_one fun z _ => by simp

theorem mass_true (L : Fin n → Fin nZ → ℝ) (pd pe : Fin n → ℝ) : mass L pd pe (fun _ => True) = total L (miss0 pd pe) (fun _ => 1) := by
  refine mass_of L pd pe _ L (fun m => 1 - pe m) (fun m => pe m * (1 - pd m)) _ _ (fun m => by unfold miss0; ring) fun h => ⟨fun _ => ?_, fun h => absurd trivial h⟩
  rw [cols_one, mul_one, weight_eq]

theorem mass_row (L : Fin n → Fin nZ → ℝ) (pd pe : Fin n → ℝ) (m : Fin n) (E : Option (Option (Fin nZ)) → Prop) (L2 : Fin n → Fin nZ → ℝ) (a2 b2 miss2 : Fin n → ℝ)
    (hsum : ∀ m, a2 m + b2 m = miss2 m)
    (hne : ∀ m' ≠ m, ∀ x, hypRow L2 a2 b2 m' x = hypRow L (fun m => 1 - pe m) (fun m => pe m * (1 - pd m)) m' x)
    (hE : ∀ x, (E x → hypRow L2 a2 b2 m x = hypRow L (fun m => 1 - pe m) (fun m => pe m * (1 - pd m)) m x) ∧ (¬ E x → hypRow L2 a2 b2 m x = 0)) :
    mass L pd pe (fun h => E (h m)) = total L2 miss2 (fun _ => 1) := by
  classical
  refine mass_of L pd pe _ L2 a2 b2 _ _ hsum fun h => ?_
  rw [cols_one, mul_one, weight_eq, hypSum_row L (fun m => 1 - pe m) (fun m => pe m * (1 - pd m)) L2 a2 b2 m hne E (fun x => by
    by_cases h : E x
    · rw [if_pos h, (hE x).1 h]
    · rw [if_neg h, (hE x).2 h])]
  exact ⟨fun h => if_pos h, fun h => if_neg h⟩

theorem mass_exists (L : Fin n → Fin nZ → ℝ) (pd pe : Fin n → ℝ) (m : Fin n) :
    mass L pd pe (fun h => h m ≠ none) = total L (missEx pd pe m) (fun _ => 1) := by
  refine mass_row L pd pe m (fun x => x ≠ none) L (Function.update (fun m => 1 - pe m) m 0) (fun m => pe m * (1 - pd m)) _ (fun m' => ?_) (fun m' h x => ?_) (fun x => ?_)
  · unfold missEx
    by_cases h : m' = m
    · subst h; simp
    · rw [Function.update_of_ne h, Function.update_of_ne h]; unfold miss0; ring
  · cases x with
    | none => simp [hypRow, Function.update_of_ne h]
    | some x => cases x <;> rfl
  · cases x with
    | none => simp [hypRow]
    | some x => cases x <;> simp [hypRow]

theorem mass_seen (L : Fin n → Fin nZ → ℝ) (pd pe : Fin n → ℝ) (m : Fin n) (z : Fin nZ) :
    mass L pd pe (fun h => h m = some (some z)) =
      total (rowMod L m fun z' => if z' = z then L m z else 0) (Function.update (miss0 pd pe) m 0) (fun _ => 1) := by
  refine mass_row L pd pe m (fun x => x = some (some z)) _ (Function.update (fun m => 1 - pe m) m 0) (Function.update (fun m => pe m * (1 - pd m)) m 0) _
    (fun m' => ?_) (fun m' h x => ?_) (fun x => ?_)
  · by_cases h : m' = m
    · subst h; simp
    · rw [Function.update_of_ne h, Function.update_of_ne h, Function.update_of_ne h]; unfold miss0; ring
  · cases x with
    | none => simp [hypRow, Function.update_of_ne h]
    | some x =>
      cases x with
      | none => simp [hypRow, Function.update_of_ne h]
      | some z' => simp [hypRow, rowMod, h]
  · cases x with
    | none => simp [hypRow]
    | some x =>
      cases x with
      | none => simp [hypRow]
      | some z' =>
        refine ⟨fun h => ?_, fun h => ?_⟩
        · cases h; simp [hypRow, rowMod]
        · have : z' ≠ z := fun e => h (by rw [e])
          simp [hypRow, rowMod, this]

theorem mass_missed (L : Fin n → Fin nZ → ℝ) (pd pe : Fin n → ℝ) (m : Fin n) :
    mass L pd pe (fun h => h m = some none) = total (rowMod L m fun _ => 0) (missEx pd pe m) (fun _ => 1) := by
  refine mass_row L pd pe m (fun x => x = some none) _ (Function.update (fun m => 1 - pe m) m 0) (fun m => pe m * (1 - pd m)) _
    (fun m' => ?_) (fun m' h x => ?_) (fun x => ?_)
  · unfold missEx
    by_cases h : m' = m
    · subst h; simp
    · rw [Function.update_of_ne h, Function.update_of_ne h]; unfold miss0; ring
  · cases x with
    | none => simp [hypRow, Function.update_of_ne h]
    | some x =>
      cases x with
      | none => rfl
      | some z' => simp [hypRow, rowMod, h]
  · cases x with
    | none => simp [hypRow]
    | some x => cases x <;> simp [hypRow, rowMod]

theorem mass_col (L : Fin n → Fin nZ → ℝ) (pd pe : Fin n → ℝ) (z : Fin nZ) :
    mass L pd pe (fun h => ∃ m, h m = some (some z)) = total L (miss0 pd pe) (Function.update (fun _ => 1) z 0) := by
  classical
  refine mass_of L pd pe _ L (fun m => 1 - pe m) (fun m => pe m * (1 - pd m)) _ _ (fun m => by unfold miss0; ring) fun h => ?_
  have hc : (∏ z' : Fin nZ, if ∃ m, h m = some (some z') then (1 : ℝ) else (Function.update (fun _ => (1 : ℝ)) z 0) z') =
      if ∃ m, h m = some (some z) then 1 else 0 := by
    rw [← Finset.mul_prod_erase _ _ (Finset.mem_univ z), Finset.prod_eq_one, mul_one, Function.update_self]
    intro z' hz'
    rw [Function.update_of_ne (Finset.ne_of_mem_erase hz')]
    split <;> rfl
  constructor
  · intro he
    rw [weight_eq]
    refine (congrArg₂ (· * ·) rfl ((Finset.prod_congr rfl fun z _ => by congr).trans (hc.trans (if_pos he)))).trans (mul_one _)
  · intro he
    refine (congrArg₂ (· * ·) rfl ((Finset.prod_congr rfl fun z _ => by congr).trans (hc.trans (if_neg he)))).trans (mul_zero _)

/-! ### One block is enough -/

/-- Changing the tables within one block changes the total by the same factor as the sum over that block. -/
theorem ratio (o : Obj n nZ) (hI : ∀ i, ∃! p, p < o.nP ∧ i ∈ o.I p) (hJ : ∀ j, ∃! p, p < o.nP ∧ j ∈ o.J p) (F F2 : Fin n → Fin nZ → ℝ) (miss miss2 : Fin n → ℝ)
    (c c2 : Fin nZ → ℝ) (hF : ∀ p < o.nP, ∀ m ∈ o.I p, ∀ z, z ∉ o.J p → F m z = 0) (hF2 : ∀ p < o.nP, ∀ m ∈ o.I p, ∀ z, z ∉ o.J p → F2 m z = 0)
    (hS : ∀ p < o.nP, S F miss c (o.I p).toFinset (o.J p).toFinset ≠ 0) (p : Nat) (hp : p < o.nP)
    (hout : ∀ m, m ∉ o.I p → F2 m = F m ∧ miss2 m = miss m) (hcout : ∀ z, z ∉ o.J p → c2 z = c z) :
    total F2 miss2 c2 / total F miss c = S F2 miss2 c2 (o.I p).toFinset (o.J p).toFinset / S F miss c (o.I p).toFinset (o.J p).toFinset ∧
    total F miss c = ∏ q ∈ Finset.range o.nP, S F miss c (o.I q).toFinset (o.J q).toFinset := by
  classical
  have hdI : ∀ q < o.nP, ∀ r < o.nP, q ≠ r → ∀ i ∈ o.I q, i ∉ o.I r := fun q hq r hr hne i h1 h2 => by
    obtain ⟨x, -, hu⟩ := hI i
    exact hne ((hu q ⟨hq, h1⟩).trans (hu r ⟨hr, h2⟩).symm)
  have hdJ : ∀ q < o.nP, ∀ r < o.nP, q ≠ r → ∀ i ∈ o.J q, i ∉ o.J r := fun q hq r hr hne i h1 h2 => by
    obtain ⟨x, -, hu⟩ := hJ i
    exact hne ((hu q ⟨hq, h1⟩).trans (hu r ⟨hr, h2⟩).symm)
  have hprod : ∀ (G : Fin n → Fin nZ → ℝ) (mi : Fin n → ℝ) (cl : Fin nZ → ℝ), (∀ p < o.nP, ∀ m ∈ o.I p, ∀ z, z ∉ o.J p → G m z = 0) →
      total G mi cl = ∏ q ∈ Finset.range o.nP, S G mi cl (o.I q).toFinset (o.J q).toFinset := by
    intro G mi cl hG
    rw [← S_blocks G mi cl (fun p => (o.I p).toFinset) (fun p => (o.J p).toFinset) o.nP, ← S_univ]
    · have e1 : (Finset.range o.nP).biUnion (fun p => (o.I p).toFinset) = Finset.univ := by
        ext i
        simp only [Finset.mem_biUnion, Finset.mem_range, List.mem_toFinset, Finset.mem_univ, iff_true]
        obtain ⟨p, h, -⟩ := hI i
        exact ⟨p, h⟩
      have e2 : (Finset.range o.nP).biUnion (fun p => (o.J p).toFinset) = Finset.univ := by
        ext j
        simp only [Finset.mem_biUnion, Finset.mem_range, List.mem_toFinset, Finset.mem_univ, iff_true]
        obtain ⟨p, h, -⟩ := hJ j
        exact ⟨p, h⟩
      rw [e1, e2]
    · intro q hq r hr hne
      rw [Finset.disjoint_left]
      exact fun i h1 h2 => hdI q hq r hr hne i (List.mem_toFinset.1 h1) (List.mem_toFinset.1 h2)
    · intro q hq r hr hne
      rw [Finset.disjoint_left]
      exact fun i h1 h2 => hdJ q hq r hr hne i (List.mem_toFinset.1 h1) (List.mem_toFinset.1 h2)
    · intro q hq r hr hne m hm z hz
      exact hG q hq m (List.mem_toFinset.1 hm) z (fun h => hdJ q hq r hr hne z h (List.mem_toFinset.1 hz))
  refine ⟨?_, hprod F miss c hF⟩
  rw [hprod F miss c hF, hprod F2 miss2 c2 hF2, ← Finset.mul_prod_erase _ _ (Finset.mem_range.2 hp),
    ← Finset.mul_prod_erase (Finset.range o.nP) (fun q => S F miss c (o.I q).toFinset (o.J q).toFinset) (Finset.mem_range.2 hp)]
  have e : ∏ q ∈ (Finset.range o.nP).erase p, S F2 miss2 c2 (o.I q).toFinset (o.J q).toFinset =
      ∏ q ∈ (Finset.range o.nP).erase p, S F miss c (o.I q).toFinset (o.J q).toFinset := by
    refine Finset.prod_congr rfl fun q hq => ?_
    have hqn := Finset.mem_range.1 (Finset.mem_of_mem_erase hq)
    have hne := Finset.ne_of_mem_erase hq
    refine S_congr _ _ _ _ _ _ _ _ (fun m hm z _ => ?_) (fun m hm => ?_) (fun z hz => ?_)
    · rw [(hout m (hdI q hqn p hp hne m (List.mem_toFinset.1 hm))).1]
    · rw [(hout m (hdI q hqn p hp hne m (List.mem_toFinset.1 hm))).2]
    · rw [hcout z (hdJ q hqn p hp hne z (List.mem_toFinset.1 hz))]
  rw [e, mul_div_mul_right]
  exact Finset.prod_ne_zero_iff.2 fun q hq => hS q (Finset.mem_range.1 (Finset.mem_of_mem_erase hq))

open Classical in
/-- Likelihood of the partition of measurement `z`: total weight of the associations between the tracks and measurements linked with `z`. -/
noncomputable def blockLik (L : Fin n → Fin nZ → ℝ) (pd pe : Fin n → ℝ) (z : Fin nZ) : ℝ :=
  S (floored L) (fun m => 1 - pd m * pe m) (fun _ => 1) (Finset.univ.filter fun m => Linked L 0 (.inl m) (.inr z))
    (Finset.univ.filter fun z' => Linked L 0 (.inr z) (.inr z'))

end LMBProps
end RFS
