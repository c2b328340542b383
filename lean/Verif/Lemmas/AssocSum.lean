import Mathlib.Algebra.BigOperators.Ring.Finset
import Mathlib.Algebra.BigOperators.Group.Finset.Sigma
import Mathlib.Algebra.BigOperators.Group.Finset.Piecewise
import Mathlib.Data.Fintype.Option
import Mathlib.Data.Fintype.Pi
import Mathlib.Tactic.Ring

/-!
Sums over all one-to-one partial associations, and their factorisation over blocks.
-/

namespace RFS
namespace Assoc

/-- No two rows share a column. -/
def OneToOne {ι κ : Type*} (f : ι → Option κ) : Prop := ∀ m m' z, f m = some z → f m' = some z → m = m'

variable {ι κ : Type*} [Fintype ι] [DecidableEq ι] [Fintype κ] [DecidableEq κ] {K : Type*} [CommRing K]

open Classical in
/-- The total weight of all one-to-one partial associations of rows with columns: an associated pair contributes its entry of the table, an
unassociated row `miss`, an unassociated column `clut`. -/
noncomputable def total (L : ι → κ → K) (miss : ι → K) (clut : κ → K) : K :=
  ∑ f ∈ (Finset.univ : Finset (ι → Option κ)).filter OneToOne,
    (∏ m, (match f m with | some z => L m z | none => miss m)) * ∏ z, if ∃ m, f m = some z then 1 else clut z

open Classical in
/-- Associations within a block. -/
noncomputable def Match (R : Finset ι) (C : Finset κ) : Finset (ι → Option κ) :=
  Finset.univ.filter fun f => (∀ m, m ∉ R → f m = none) ∧ (∀ m z, f m = some z → z ∈ C) ∧ OneToOne f

/-- Contribution of one row. -/
def rowW (L : ι → κ → K) (miss : ι → K) (f : ι → Option κ) (m : ι) : K :=
  match f m with | some z => L m z | none => miss m

open Classical in
/-- Contribution of one column. -/
noncomputable def colW (clut : κ → K) (f : ι → Option κ) (z : κ) : K := if ∃ m, f m = some z then 1 else clut z

/-- Total weight of a block. -/
noncomputable def S (L : ι → κ → K) (miss : ι → K) (clut : κ → K) (R : Finset ι) (C : Finset κ) : K :=
  ∑ f ∈ Match R C, (∏ m ∈ R, rowW L miss f m) * ∏ z ∈ C, colW clut f z

theorem mem_Match {R : Finset ι} {C : Finset κ} {f : ι → Option κ} :
    f ∈ Match R C ↔ (∀ m, m ∉ R → f m = none) ∧ (∀ m z, f m = some z → z ∈ C) ∧ OneToOne f := by
  classical
  unfold Match
  exact Finset.mem_filter.trans (and_iff_right (Finset.mem_univ f))

theorem S_univ (L : ι → κ → K) (miss : ι → K) (clut : κ → K) : S L miss clut Finset.univ Finset.univ = total L miss clut := by
  classical
  unfold S total
  refine Finset.sum_congr ?_ (fun f _ => rfl)
  ext f
  rw [mem_Match, Finset.mem_filter]
  simp

/-- The part of an association on some rows. -/
def restr (R : Finset ι) (f : ι → Option κ) : ι → Option κ := fun m => if m ∈ R then f m else none

/-- Two blocks without common entries. -/
theorem S_union (L : ι → κ → K) (miss : ι → K) (clut : κ → K) (R1 R2 : Finset ι) (C1 C2 : Finset κ) (hR : Disjoint R1 R2) (hC : Disjoint C1 C2)
    (h12 : ∀ m ∈ R1, ∀ z ∈ C2, L m z = 0) (h21 : ∀ m ∈ R2, ∀ z ∈ C1, L m z = 0) :
    S L miss clut (R1 ∪ R2) (C1 ∪ C2) = S L miss clut R1 C1 * S L miss clut R2 C2 := by
  classical
  have hR' : ∀ m, m ∈ R1 → m ∈ R2 → False := fun m h1 h2 => Finset.disjoint_left.1 hR h1 h2
  have hC' : ∀ z, z ∈ C1 → z ∈ C2 → False := fun z h1 h2 => Finset.disjoint_left.1 hC h1 h2
  unfold S
  rw [Finset.sum_mul_sum, ← Finset.sum_product']
  -- only associations that respect the blocks count
  rw [← Finset.sum_filter_of_ne (p := fun f : ι → Option κ => ∀ m z, f m = some z → (m ∈ R1 → z ∈ C1) ∧ (m ∈ R2 → z ∈ C2))]
  · refine Finset.sum_bij' (fun f _ => (restr R1 f, restr R2 f)) (fun g _ m => if m ∈ R1 then g.1 m else g.2 m) ?_ ?_ ?_ ?_ ?_
    · intro f hf
      rw [Finset.mem_filter, mem_Match] at hf
      obtain ⟨⟨h1, h2, h3⟩, h4⟩ := hf
      rw [Finset.mem_product, mem_Match, mem_Match]
      refine ⟨⟨fun m hm => by simp [restr, hm], fun m z hz => ?_, fun m m' z hz hz' => ?_⟩,
        ⟨fun m hm => by simp [restr, hm], fun m z hz => ?_, fun m m' z hz hz' => ?_⟩⟩
      · simp only [restr] at hz; split at hz
        · rename_i hm; exact (h4 m z hz).1 hm
        · cases hz
      · simp only [restr] at hz hz'; split at hz
        · split at hz'
          · exact h3 m m' z hz hz'
          · cases hz'
        · cases hz
      · simp only [restr] at hz; split at hz
        · rename_i hm; exact (h4 m z hz).2 hm
        · cases hz
      · simp only [restr] at hz hz'; split at hz
        · split at hz'
          · exact h3 m m' z hz hz'
          · cases hz'
        · cases hz
    · intro g hg
      rw [Finset.mem_product, mem_Match, mem_Match] at hg
      obtain ⟨⟨a1, a2, a3⟩, ⟨b1, b2, b3⟩⟩ := hg
      rw [Finset.mem_filter, mem_Match]
      have key : ∀ m z, (if m ∈ R1 then g.1 m else g.2 m) = some z → (m ∈ R1 ∧ z ∈ C1 ∧ g.1 m = some z) ∨ (m ∈ R2 ∧ z ∈ C2 ∧ g.2 m = some z) := by
        intro m z hz
        split at hz
        · rename_i hm; exact Or.inl ⟨hm, a2 m z hz, hz⟩
        · refine Or.inr ⟨?_, b2 m z hz, hz⟩
          by_contra hm
          rw [b1 m hm] at hz; cases hz
      refine ⟨⟨fun m hm => ?_, fun m z hz => ?_, fun m m' z hz hz' => ?_⟩, fun m z hz => ?_⟩
      · rw [Finset.mem_union, not_or] at hm
        rw [if_neg hm.1]; exact b1 m hm.2
      · rcases key m z hz with h | h
        · exact Finset.mem_union_left _ h.2.1
        · exact Finset.mem_union_right _ h.2.1
      · rcases key m z hz with h | h <;> rcases key m' z hz' with h' | h'
        · exact a3 m m' z h.2.2 h'.2.2
        · exact absurd h'.2.1 (fun h2 => hC' z h.2.1 h2)
        · exact absurd h.2.1 (fun h2 => hC' z h'.2.1 h2)
        · exact b3 m m' z h.2.2 h'.2.2
      · rcases key m z hz with h | h
        · exact ⟨fun _ => h.2.1, fun h2 => absurd h2 (fun h2 => hR' m h.1 h2)⟩
        · exact ⟨fun h2 => absurd h.1 (fun h3 => hR' m h2 h3), fun _ => h.2.1⟩
    · intro f hf
      rw [Finset.mem_filter, mem_Match] at hf
      obtain ⟨⟨h1, h2, h3⟩, h4⟩ := hf
      funext m
      simp only [restr]
      by_cases hm : m ∈ R1
      · simp [hm]
      · by_cases hm2 : m ∈ R2
        · simp [hm, hm2]
        · simp only [hm, hm2, if_false]
          exact (h1 m (by simp [hm, hm2])).symm
    · intro g hg
      rw [Finset.mem_product, mem_Match, mem_Match] at hg
      obtain ⟨⟨a1, a2, a3⟩, ⟨b1, b2, b3⟩⟩ := hg
      refine Prod.ext ?_ ?_
      · funext m
        by_cases hm : m ∈ R1
        · simp [restr, hm]
        · simp [restr, hm, a1 m hm]
      · funext m
        by_cases hm : m ∈ R2
        · have : m ∉ R1 := fun h => hR' m h hm
          simp [restr, hm, this]
        · simp [restr, hm, b1 m hm]
    · intro f hf
      rw [Finset.mem_filter, mem_Match] at hf
      obtain ⟨⟨h1, h2, h3⟩, h4⟩ := hf
      rw [Finset.prod_union hR, Finset.prod_union hC]
      have e1 : ∏ m ∈ R1, rowW L miss f m = ∏ m ∈ R1, rowW L miss (restr R1 f) m :=
        Finset.prod_congr rfl fun m hm => by simp [rowW, restr, hm]
      have e2 : ∏ m ∈ R2, rowW L miss f m = ∏ m ∈ R2, rowW L miss (restr R2 f) m :=
        Finset.prod_congr rfl fun m hm => by simp [rowW, restr, hm]
      have e3 : ∏ z ∈ C1, colW clut f z = ∏ z ∈ C1, colW clut (restr R1 f) z := by
        refine Finset.prod_congr rfl fun z hz => ?_
        unfold colW
        have : (∃ m, f m = some z) ↔ ∃ m, restr R1 f m = some z := by
          constructor
          · rintro ⟨m, hm⟩
            refine ⟨m, ?_⟩
            have hm1 : m ∈ R1 := by
              by_contra hn
              have hm2 : m ∈ R2 := by
                by_contra hn2
                rw [h1 m (by simp [hn, hn2])] at hm; cases hm
              exact hC' z hz ((h4 m z hm).2 hm2)
            simpa [restr, hm1] using hm
          · rintro ⟨m, hm⟩
            unfold restr at hm
            split at hm
            · exact ⟨m, hm⟩
            · cases hm
        simp only [this]
      have e4 : ∏ z ∈ C2, colW clut f z = ∏ z ∈ C2, colW clut (restr R2 f) z := by
        refine Finset.prod_congr rfl fun z hz => ?_
        unfold colW
        have : (∃ m, f m = some z) ↔ ∃ m, restr R2 f m = some z := by
          constructor
          · rintro ⟨m, hm⟩
            refine ⟨m, ?_⟩
            have hm2 : m ∈ R2 := by
              by_contra hn
              have hm1 : m ∈ R1 := by
                by_contra hn2
                rw [h1 m (by simp [hn, hn2])] at hm; cases hm
              exact hC' z ((h4 m z hm).1 hm1) hz
            simpa [restr, hm2] using hm
          · rintro ⟨m, hm⟩
            unfold restr at hm
            split at hm
            · exact ⟨m, hm⟩
            · cases hm
        simp only [this]
      rw [e1, e2, e3, e4]
      ring
  · -- the others have a zero factor
    intro f hf hne m z hz
    rw [mem_Match] at hf
    constructor
    · intro hm
      by_contra hn
      have hz2 : z ∈ C2 := by
        rcases Finset.mem_union.1 (hf.2.1 m z hz) with h | h
        · exact absurd h hn
        · exact h
      apply hne
      rw [Finset.prod_eq_zero (Finset.mem_union_left R2 hm) (by simp only [rowW, hz]; exact h12 m hm z hz2), zero_mul]
    · intro hm
      by_contra hn
      have hz1 : z ∈ C1 := by
        rcases Finset.mem_union.1 (hf.2.1 m z hz) with h | h
        · exact h
        · exact absurd h hn
      apply hne
      rw [Finset.prod_eq_zero (Finset.mem_union_right R1 hm) (by simp only [rowW, hz]; exact h21 m hm z hz1), zero_mul]

/-- No rows, no columns. -/
theorem S_empty (L : ι → κ → K) (miss : ι → K) (clut : κ → K) : S L miss clut ∅ ∅ = 1 := by
  have : Match (∅ : Finset ι) (∅ : Finset κ) = {fun _ => none} := by
    ext f
    rw [mem_Match, Finset.mem_singleton]
    constructor
    · rintro ⟨h, -, -⟩; funext m; exact h m (by simp)
    · rintro rfl; exact ⟨fun _ _ => rfl, fun _ _ h => by simp at h, fun _ _ _ h => by simp at h⟩
  unfold S
  rw [this]
  simp

/-- Many blocks. -/
theorem S_blocks (L : ι → κ → K) (miss : ι → K) (clut : κ → K) (R : Nat → Finset ι) (C : Nat → Finset κ) (n : Nat)
    (hR : ∀ p < n, ∀ q < n, p ≠ q → Disjoint (R p) (R q)) (hC : ∀ p < n, ∀ q < n, p ≠ q → Disjoint (C p) (C q))
    (h0 : ∀ p < n, ∀ q < n, p ≠ q → ∀ m ∈ R p, ∀ z ∈ C q, L m z = 0) :
    S L miss clut ((Finset.range n).biUnion R) ((Finset.range n).biUnion C) = ∏ p ∈ Finset.range n, S L miss clut (R p) (C p) := by
  induction n with
  | zero => simp [S_empty]
  | succ n ih =>
    rw [Finset.prod_range_succ, ← ih (fun p hp q hq => hR p (by omega) q (by omega)) (fun p hp q hq => hC p (by omega) q (by omega))
      (fun p hp q hq => h0 p (by omega) q (by omega)), Finset.range_add_one, Finset.biUnion_insert, Finset.biUnion_insert, Finset.union_comm,
      Finset.union_comm (C n)]
    apply S_union
    · rw [Finset.disjoint_biUnion_left]
      intro p hp
      have := Finset.mem_range.1 hp
      exact hR p (by omega) n (by omega) (by omega)
    · rw [Finset.disjoint_biUnion_left]
      intro p hp
      have := Finset.mem_range.1 hp
      exact hC p (by omega) n (by omega) (by omega)
    · intro m hm z hz
      obtain ⟨p, hp, hm⟩ := Finset.mem_biUnion.1 hm
      have := Finset.mem_range.1 hp
      exact h0 p (by omega) n (by omega) (by omega) m hm z hz
    · intro m hm z hz
      obtain ⟨p, hp, hz⟩ := Finset.mem_biUnion.1 hz
      have := Finset.mem_range.1 hp
      exact h0 n (by omega) p (by omega) (by omega) m hm z hz

/-- A block whose entries are all zero: nothing is associated. -/
theorem S_zero (L : ι → κ → K) (miss : ι → K) (clut : κ → K) (R : Finset ι) (C : Finset κ) (h0 : ∀ m ∈ R, ∀ z ∈ C, L m z = 0) :
    S L miss clut R C = (∏ m ∈ R, miss m) * ∏ z ∈ C, clut z := by
  classical
  unfold S
  rw [Finset.sum_eq_single (fun _ => none)]
  · simp [rowW, colW]
  · intro f hf hne
    rw [mem_Match] at hf
    have : ∃ m z, f m = some z := by
      by_contra h
      push Not at h
      apply hne
      funext m
      cases hm : f m with
      | none => rfl
      | some z => exact absurd hm (h m z)
    obtain ⟨m, z, hz⟩ := this
    have hm : m ∈ R := by
      by_contra hn
      rw [hf.1 m hn] at hz; cases hz
    rw [Finset.prod_eq_zero hm (by simp only [rowW, hz]; exact h0 m hm z (hf.2.1 m z hz)), zero_mul]
  · intro h
    exfalso
    exact h (mem_Match.2 ⟨fun _ _ => rfl, fun _ _ h => by simp at h, fun _ _ _ h => by simp at h⟩)

/-- Only the entries within the block matter. -/
theorem S_congr (L L' : ι → κ → K) (miss miss' : ι → K) (clut clut' : κ → K) (R : Finset ι) (C : Finset κ)
    (h : ∀ m ∈ R, ∀ z ∈ C, L m z = L' m z) (hm : ∀ m ∈ R, miss m = miss' m) (hc : ∀ z ∈ C, clut z = clut' z) :
    S L miss clut R C = S L' miss' clut' R C := by
  classical
  unfold S
  refine Finset.sum_congr rfl fun f hf => ?_
  rw [mem_Match] at hf
  congr 1
  · refine Finset.prod_congr rfl fun m hmR => ?_
    unfold rowW
    cases e : f m with
    | none => exact hm m hmR
    | some z => exact h m hmR z (hf.2.1 m z e)
  · refine Finset.prod_congr rfl fun z hz => ?_
    unfold colW
    split
    · rfl
    · exact hc z hz

end Assoc
end RFS
