import Verif.Lemmas.RFSLikelihood
import Verif.Props.MurtyBlock

/-!
Lemmas relating the associations within a block of the table, given by lists of rows and columns, to associations of positions.
-/

set_option linter.unusedSectionVars false

namespace RFS
namespace RFSLik
open Assoc MurtyBlockProps

variable {nM nZ : Nat}

/-- The association of rows and columns for an association of positions. -/
def up (rows : List (Fin nM)) (cols : List (Fin nZ)) (A : Fin rows.length → Option (Fin cols.length)) : Fin nM → Option (Fin nZ) := fun m =>
  if h : m ∈ rows then (A ⟨rows.idxOf m, List.idxOf_lt_length_iff.2 h⟩).map cols.get else none

variable {rows : List (Fin nM)} {cols : List (Fin nZ)}

theorem up_get (hr : rows.Nodup) (A : Fin rows.length → Option (Fin cols.length)) (i : Fin rows.length) : up rows cols A (rows.get i) = (A i).map cols.get := by
  unfold up
  rw [dif_pos (List.get_mem _ _)]
  congr 2
  exact Fin.ext (hr.idxOf_getElem i.val i.2)

theorem up_some (hr : rows.Nodup) {A : Fin rows.length → Option (Fin cols.length)} {m : Fin nM} {z : Fin nZ} (h : up rows cols A m = some z) :
    ∃ i j, m = rows.get i ∧ A i = some j ∧ cols.get j = z := by
  by_cases hm : m ∈ rows
  · obtain ⟨i, hi⟩ := List.get_of_mem hm
    rw [← hi, up_get hr, Option.map_eq_some_iff] at h
    obtain ⟨j, h1, h2⟩ := h
    exact ⟨i, j, hi.symm, h1, h2⟩
  · unfold up at h
    rw [dif_neg hm] at h
    cases h

theorem up_mem (hr : rows.Nodup) (hc : cols.Nodup) {A : Fin rows.length → Option (Fin cols.length)} (hA : OneToOne A) :
    up rows cols A ∈ Match rows.toFinset cols.toFinset := by
  rw [mem_Match]
  refine ⟨fun m hm => ?_, fun m z h => ?_, fun m m' z h h' => ?_⟩
  · unfold up
    rw [dif_neg (by simpa using hm)]
  · obtain ⟨i, j, -, -, rfl⟩ := up_some hr h
    exact List.mem_toFinset.2 (List.get_mem _ _)
  · obtain ⟨i, j, rfl, h1, rfl⟩ := up_some hr h
    obtain ⟨i', j', rfl, h2, h3⟩ := up_some hr h'
    have : j' = j := (List.nodup_iff_injective_get.1 hc) h3
    rw [this] at h2
    rw [hA i i' j h1 h2]

theorem up_inj (hr : rows.Nodup) (hc : cols.Nodup) {A B : Fin rows.length → Option (Fin cols.length)} (h : up rows cols A = up rows cols B) : A = B := by
  funext i
  have h1 := congrFun h (rows.get i)
  rw [up_get hr, up_get hr] at h1
  exact Option.map_injective (List.nodup_iff_injective_get.1 hc) h1

theorem up_surj (hr : rows.Nodup) (hc : cols.Nodup) {f : Fin nM → Option (Fin nZ)} (hf : f ∈ Match rows.toFinset cols.toFinset) :
    ∃ A, OneToOne A ∧ up rows cols A = f := by
  rw [mem_Match] at hf
  obtain ⟨h1, h2, h3⟩ := hf
  have hex : ∀ i : Fin rows.length, ∃ a : Option (Fin cols.length), a.map cols.get = f (rows.get i) := by
    intro i
    cases e : f (rows.get i) with
    | none => exact ⟨none, rfl⟩
    | some z =>
      obtain ⟨j, hj⟩ := List.get_of_mem (List.mem_toFinset.1 (h2 _ _ e))
      exact ⟨some j, by rw [Option.map_some, hj]⟩
  choose A hA using hex
  refine ⟨A, fun i i' j hi hi' => ?_, ?_⟩
  · have e1 := hA i
    have e2 := hA i'
    rw [hi, Option.map_some] at e1
    rw [hi', Option.map_some] at e2
    exact (List.nodup_iff_injective_get.1 hr) (h3 _ _ _ e1.symm e2.symm)
  · funext m
    by_cases hm : m ∈ rows
    · obtain ⟨i, rfl⟩ := List.get_of_mem hm
      rw [up_get hr, hA]
    · unfold up
      rw [dif_neg hm, h1 m (by simpa using hm)]

theorem prod_rows {α : Type*} [DecidableEq α] (l : List α) (h : l.Nodup) (f : α → ℝ) : ∏ a ∈ l.toFinset, f a = ∏ i : Fin l.length, f (l.get i) := by
  rw [List.prod_toFinset _ h]
  exact (Fin.prod_univ_fun_getElem l f).symm

/-- The weight of an association of the block. -/
theorem up_weight (hr : rows.Nodup) (hc : cols.Nodup) (A : Fin rows.length → Option (Fin cols.length)) (L : Fin nM → Fin nZ → ℝ) (miss : Fin nM → ℝ) (clut : Fin nZ → ℝ) :
    (∏ m ∈ rows.toFinset, rowW L miss (up rows cols A) m) * ∏ z ∈ cols.toFinset, colW clut (up rows cols A) z =
      (∏ i, rowW (fun i j => L (rows.get i) (cols.get j)) (fun i => miss (rows.get i)) A i) * ∏ j, colW (fun j => clut (cols.get j)) A j := by
  rw [prod_rows _ hr, prod_rows _ hc]
  congr 1
  · refine Finset.prod_congr rfl fun i _ => ?_
    unfold rowW
    rw [up_get hr]
    cases A i <;> rfl
  · refine Finset.prod_congr rfl fun j _ => ?_
    suffices hiff : (∃ m, up rows cols A m = some (cols.get j)) ↔ ∃ i, A i = some j by
      unfold colW
      by_cases h : ∃ i, A i = some j
      · rw [if_pos (hiff.2 h), if_pos h]
      · rw [if_neg (fun h' => h (hiff.1 h')), if_neg h]
    constructor
    · rintro ⟨m, hm⟩
      obtain ⟨i, j', -, h1, h2⟩ := up_some hr hm
      rw [(List.nodup_iff_injective_get.1 hc) h2] at h1
      exact ⟨i, h1⟩
    · rintro ⟨i, hi⟩
      exact ⟨rows.get i, by rw [up_get hr, hi]; rfl⟩

/-- Sum over the associations of the block. -/
theorem S_block (hr : rows.Nodup) (hc : cols.Nodup) (L : Fin nM → Fin nZ → ℝ) (miss : Fin nM → ℝ) (clut : Fin nZ → ℝ) :
    S L miss clut rows.toFinset cols.toFinset =
      Assoc.total (fun i j => L (rows.get i) (cols.get j)) (fun i => miss (rows.get i)) (fun j => clut (cols.get j)) := by
  classical
  unfold S Assoc.total
  symm
  refine Finset.sum_bij (fun A _ => up rows cols A) ?_ ?_ ?_ ?_
  · intro A hA
    exact up_mem hr hc ((@Finset.mem_filter _ _ (_) _ _).1 hA).2
  · intro A _ B _ h
    exact up_inj hr hc h
  · intro f hf
    obtain ⟨A, hA, rfl⟩ := up_surj hr hc hf
    exact ⟨A, (@Finset.mem_filter _ _ (_) _ _).2 ⟨Finset.mem_univ _, hA⟩, rfl⟩
  · intro A _
    exact (up_weight hr hc A L miss clut).symm

theorem exp_logEntry (x : ℝ) (h : 0 ≤ x) : Real.exp ((logEntry x).unbotD 0) = max x eps ∧ -1000 ≤ (logEntry x).unbotD 0 := by
  have h1 : Real.exp ((logEntry x).unbotD 0) = max x eps := by
    rw [← ex_logEntry x h]
    cases e : logEntry x with
    | coe y => rfl
    | bot =>
      have := ex_logEntry x h
      rw [e] at this
      have h2 : (0 : ℝ) = max x eps := this
      have h3 : 0 < max x eps := lt_max_of_lt_right (Real.exp_pos _)
      linarith
  refine ⟨h1, ?_⟩
  rw [← Real.exp_le_exp, h1]
  exact le_max_right _ _

open Classical in
/-- A block given to Murty's algorithm. -/
theorem block_spec (Q : ∀ n, Murty.PQ ℝ n) (big : ℝ) (fuel cnt : Nat) (L : Fin nM → Fin nZ → ℝ) (pd : Fin nM → ℝ) (clut : Fin nZ → ℝ) (lo hi : ℝ)
    (hL : ∀ m z, 0 ≤ L m z ∧ L m z ≤ Real.exp hi) (hpd : ∀ m, Real.exp lo ≤ 1 - pd m ∧ 1 - pd m ≤ Real.exp hi) (hcl : ∀ z, Real.exp lo ≤ clut z ∧ clut z ≤ Real.exp hi)
    (hlo : -1000 ≤ lo) (hl0 : lo ≤ 0) (h0h : 0 ≤ hi) (hr : rows.Nodup) (hc : cols.Nodup) (hr0 : rows ≠ []) (hc0 : cols ≠ [])
    (hbig : (rows.length + cols.length : ℕ) * (hi - lo) + (rows.length + cols.length : ℕ) * (1 / 10 ^ 12) < big - 2000)
    (hf : (rows.length + cols.length) * (rows.length + cols.length + 1) < fuel) :
    ∃ v, MurtyLik.partition (Q (rows.length + cols.length)) (fun i j => (logEntry (L (rows.get i) (cols.get j))).unbotD 0) (fun i => Real.log (1 - pd (rows.get i)))
        (fun j => Real.log (clut (cols.get j))) (-1000) big fuel cnt = some v ∧
      v ≤ S (fun m z => max (L m z) eps) (fun m => 1 - pd m) clut rows.toFinset cols.toFinset +
        cnt * Real.exp (-1000 + (rows.length + cols.length : ℕ) * hi + 2 * (rows.length + cols.length : ℕ) * (1 / 10 ^ 12)) ∧
      ∀ T : Finset (Fin nM → Option (Fin nZ)), T ⊆ Match rows.toFinset cols.toFinset → T.card ≤ cnt →
        ∑ f ∈ T, (∏ m ∈ rows.toFinset, rowW (fun m z => max (L m z) eps) (fun m => 1 - pd m) f m) * ∏ z ∈ cols.toFinset, colW clut f z ≤
          Real.exp ((rows.length + cols.length : ℕ) * (1 / 10 ^ 12)) * v +
            cnt * Real.exp (-1000 + (rows.length + cols.length : ℕ) * hi + 2 * (rows.length + cols.length : ℕ) * (1 / 10 ^ 12)) := by
  have hpd0 : ∀ m, 0 < 1 - pd m := fun m => lt_of_lt_of_le (Real.exp_pos _) (hpd m).1
  have hcl0 : ∀ z, 0 < clut z := fun z => lt_of_lt_of_le (Real.exp_pos _) (hcl z).1
  have hRg : Ranges (fun (i : Fin rows.length) (j : Fin cols.length) => (logEntry (L (rows.get i) (cols.get j))).unbotD 0) (fun i => Real.log (1 - pd (rows.get i)))
      (fun j => Real.log (clut (cols.get j))) (-1000) big lo hi := by
    refine ⟨List.length_pos_of_ne_nil hr0, List.length_pos_of_ne_nil hc0, fun r c => ?_, fun r => ?_, fun c => ?_, hlo, hl0, h0h, by linarith⟩
    · obtain ⟨h1, h2⟩ := exp_logEntry (L (rows.get r) (cols.get c)) (hL _ _).1
      refine ⟨h2, ?_⟩
      rw [← Real.exp_le_exp, h1]
      refine max_le (hL _ _).2 ?_
      unfold eps
      exact Real.exp_le_exp.2 (by linarith)
    · exact ⟨(Real.le_log_iff_exp_le (hpd0 _)).2 (hpd _).1, (Real.log_le_iff_le_exp (hpd0 _)).2 (hpd _).2⟩
    · exact ⟨(Real.le_log_iff_exp_le (hcl0 _)).2 (hcl _).1, (Real.log_le_iff_le_exp (hcl0 _)).2 (hcl _).2⟩
  obtain ⟨v, h1, h2, h3⟩ := partition_sum (Q (rows.length + cols.length)) hRg fuel cnt hf
  have e1 : (fun (i : Fin rows.length) (j : Fin cols.length) => Real.exp ((logEntry (L (rows.get i) (cols.get j))).unbotD 0)) =
      fun i j => max (L (rows.get i) (cols.get j)) eps := by
    funext i j
    exact (exp_logEntry _ (hL _ _).1).1
  have e2 : (fun i : Fin rows.length => Real.exp (Real.log (1 - pd (rows.get i)))) = fun i => 1 - pd (rows.get i) := by
    funext i
    exact Real.exp_log (hpd0 _)
  have e3 : (fun j : Fin cols.length => Real.exp (Real.log (clut (cols.get j)))) = fun j => clut (cols.get j) := by
    funext j
    exact Real.exp_log (hcl0 _)
  refine ⟨v, ?_, ?_, ?_⟩
  · exact h1
  · rw [e1, e2, e3] at h2
    rw [S_block hr hc]
    exact h2
  · intro T hT hcard
    -- the associations of positions
    let U : Finset (Fin rows.length → Option (Fin cols.length)) := Finset.univ.filter fun A => up rows cols A ∈ T
    have hU : U.image (up rows cols) = T := by
      ext f
      simp only [U, Finset.mem_image, Finset.mem_filter, Finset.mem_univ, true_and]
      constructor
      · rintro ⟨A, hA, rfl⟩; exact hA
      · intro hf
        obtain ⟨A, -, rfl⟩ := up_surj hr hc (hT hf)
        exact ⟨A, hf, rfl⟩
    have hinj : Set.InjOn (up rows cols) (U : Set (Fin rows.length → Option (Fin cols.length))) := fun A _ B _ h => up_inj hr hc h
    have hUc : U.card = T.card := by rw [← hU, Finset.card_image_of_injOn hinj]
    have h4 := h3 U (fun A hA => by
      have h5 := hT (Finset.mem_filter.1 hA).2
      rw [mem_Match] at h5
      intro i i' j hi hi'
      have h6 := h5.2.2 (rows.get i) (rows.get i') (cols.get j) (by rw [up_get hr, hi]; rfl) (by rw [up_get hr, hi']; rfl)
      exact (List.nodup_iff_injective_get.1 hr) h6) (by rw [hUc]; exact hcard)
    refine le_trans (le_of_eq ?_) h4
    rw [← hU, Finset.sum_image hinj]
    refine Finset.sum_congr rfl fun A _ => ?_
    rw [up_weight hr hc, exp_value, e1, e2, e3]

open Classical in
/-- A large block. -/
theorem murtyBlock_spec (Q : ∀ n, Murty.PQ ℝ n) (big : ℝ) (fuel : Nat) (L : Fin nM → Fin nZ → ℝ) (pd : Fin nM → ℝ) (clut : Fin nZ → ℝ) (lo hi : ℝ)
    (hL : ∀ m z, 0 ≤ L m z ∧ L m z ≤ Real.exp hi) (hpd : ∀ m, Real.exp lo ≤ 1 - pd m ∧ 1 - pd m ≤ Real.exp hi) (hcl : ∀ z, Real.exp lo ≤ clut z ∧ clut z ≤ Real.exp hi)
    (hlo : -1000 ≤ lo) (hl0 : lo ≤ 0) (h0h : 0 ≤ hi) (hr : rows.Nodup) (hc : cols.Nodup) (hr0 : rows ≠ []) (hc0 : cols ≠ [])
    (hbig : (rows.length + cols.length : ℕ) * (hi - lo) + (rows.length + cols.length : ℕ) * (1 / 10 ^ 12) < big - 2000)
    (hf : (rows.length + cols.length) * (rows.length + cols.length + 1) < fuel) :
    ∃ v, murtyBlock Q big fuel L pd clut rows cols = some v ∧
      v ≤ S (fun m z => max (L m z) eps) (fun m => 1 - pd m) clut rows.toFinset cols.toFinset +
        200 * Real.exp (-1000 + (rows.length + cols.length : ℕ) * hi + 2 * (rows.length + cols.length : ℕ) * (1 / 10 ^ 12)) ∧
      ∀ T : Finset (Fin nM → Option (Fin nZ)), T ⊆ Match rows.toFinset cols.toFinset → T.card ≤ 200 →
        ∑ f ∈ T, (∏ m ∈ rows.toFinset, rowW (fun m z => max (L m z) eps) (fun m => 1 - pd m) f m) * ∏ z ∈ cols.toFinset, colW clut f z ≤
          Real.exp ((rows.length + cols.length : ℕ) * (1 / 10 ^ 12)) * v +
            200 * Real.exp (-1000 + (rows.length + cols.length : ℕ) * hi + 2 * (rows.length + cols.length : ℕ) * (1 / 10 ^ 12)) := by
  obtain ⟨v, h1, h2, h3⟩ := block_spec Q big fuel 200 L pd clut lo hi hL hpd hcl hlo hl0 h0h hr hc hr0 hc0 hbig hf
  refine ⟨v, ?_, by simpa only [Nat.cast_ofNat] using h2, by simpa only [Nat.cast_ofNat] using h3⟩
  unfold murtyBlock
  rw [if_neg]
  · exact h1
  · rintro (⟨r, -, h⟩ | ⟨c, -, h⟩)
    · have := lt_of_lt_of_le (Real.exp_pos _) (hpd r).1; linarith
    · have := lt_of_lt_of_le (Real.exp_pos _) (hcl c).1; linarith

end RFSLik
end RFS
