import Verif.Model.CeresLin
import Verif.Props.RFSLikelihood
import Mathlib.Analysis.Calculus.Deriv.Mul
import Mathlib.Analysis.Calculus.Deriv.Add
import Mathlib.Analysis.SpecialFunctions.Log.Deriv
import Mathlib.Analysis.SpecialFunctions.Exp
import Mathlib.Analysis.Complex.ExponentialBounds

/-!
Property C253: likelihood and gradient of one scan in `RFSCeresSLAM::rfsMeasurementLikelihood(k, ...)`.

Specification: `Assoc.total` as in C42, with the detection probabilities of the measurement model; the gradient is the derivative of the
logarithm of the likelihood of a partition.
-/

set_option linter.unusedSectionVars false

namespace RFS
namespace CeresLinProps
open CeresLin RFSLik Partition PartitionProps PermLexProps Assoc RFSLikProps

variable {nM nZ : Nat}

theorem gradLoop_eq (val : List Nat → Option ℝ) (n : Nat) : ∀ (st : PermLex.St) (fuel : Nat) (acc : ℝ) (xs : Nat → List Nat) (v : Nat → ℝ), n < fuel →
    (∀ k < n, ∃ r, r ≠ 0 ∧ PermLex.call st k = some (xs k, r)) → (∃ o, PermLex.call st n = some (o, 0)) → (∀ k < n, val (xs k) = some (v k)) →
    gradLoop val fuel st acc = some (acc + ∑ k ∈ Finset.range n, v k) := by
  induction n with
  | zero =>
    intro st fuel acc xs v hf _ ⟨o, ho⟩ _
    obtain ⟨fuel, rfl⟩ := Nat.exists_eq_succ_of_ne_zero (by omega : fuel ≠ 0)
    unfold gradLoop
    unfold PermLex.call at ho
    cases h : PermLex.next st with
    | none => rw [h] at ho; cases ho
    | some r =>
      obtain ⟨o', n', st'⟩ := r
      rw [h] at ho
      simp only [Option.map_some, Option.some.injEq, Prod.mk.injEq] at ho
      simp only
      rw [if_pos ho.2]
      simp
  | succ n ih =>
    intro st fuel acc xs v hf hk ho hv
    obtain ⟨fuel, rfl⟩ := Nat.exists_eq_succ_of_ne_zero (by omega : fuel ≠ 0)
    unfold gradLoop
    obtain ⟨r, hr, h0⟩ := hk 0 (by omega)
    unfold PermLex.call at h0
    cases h : PermLex.next st with
    | none => rw [h] at h0; cases h0
    | some s =>
      obtain ⟨o', n', st'⟩ := s
      rw [h] at h0
      simp only [Option.map_some, Option.some.injEq, Prod.mk.injEq] at h0
      simp only
      rw [if_neg (by rw [h0.2]; exact hr), h0.1, hv 0 (by omega), Option.bind_some]
      have hcall : ∀ k, PermLex.call st (k + 1) = PermLex.call st' k := by
        intro k
        conv_lhs => unfold PermLex.call
        rw [h]
      rw [ih st' fuel _ (fun k => xs (k + 1)) (fun k => v (k + 1)) (by omega) (fun k hkn => by rw [← hcall]; exact hk (k + 1) (by omega))
        (by obtain ⟨o, ho⟩ := ho; exact ⟨o, by rw [← hcall]; exact ho⟩) (fun k hkn => hv (k + 1) (by omega))]
      rw [Finset.sum_range_succ']
      congr 1
      ring

/-- The weight of an association of a partition. -/
noncomputable def weight (L : Fin nM → Fin nZ → ℝ) (pd : Fin nM → ℝ) (cl : Fin nZ → ℝ) (R : Finset (Fin nM)) (C : Finset (Fin nZ)) (f : Fin nM → Option (Fin nZ)) : ℝ :=
  (∏ m ∈ R, rowW (fun m z => max (L m z) (Real.exp (-1000))) (fun m => 1 - pd m) f m) * ∏ z ∈ C, colW cl f z

/-- What an association adds to the gradient for the chosen rows. -/
noncomputable def slope (s : Fin nM → Fin nZ → ℝ) (R : Finset (Fin nM)) (sel : Fin nM → Bool) (f : Fin nM → Option (Fin nZ)) : ℝ :=
  ∑ m ∈ R, if sel m then (f m).elim 0 (s m) else 0

theorem reads_toF (s : Fin nM → Fin nZ → Option ℝ) (rows : List (Fin nM)) (cols : List (Fin nZ)) (hr : rows.Nodup) (p : List Nat) (hp : p.length = rows.length)
    (q : List Nat) (m : Fin nM) (j : Nat) (h : (m, j) ∈ rows.zip (p ++ q)) :
    m ∈ rows ∧ reads s cols m j = (toF rows cols p m).elim (some 0) (s m) := by
  obtain ⟨i, hi, e⟩ := List.getElem_of_mem h
  rw [List.getElem_zip, Prod.mk.injEq] at e
  have hi1 : i < rows.length := by rw [List.length_zip] at hi; omega
  refine ⟨e.1 ▸ List.getElem_mem _, ?_⟩
  rw [← e.1, toF_get rows cols hr p i hi1 (by omega)]
  have e2 : p[i]'(by omega) = j := by
    rw [← e.2, List.getElem_append_left (by omega)]
  rw [e2]
  unfold reads
  cases cols[j]? <;> rfl

theorem zip_sum (rows : List (Fin nM)) (hr : rows.Nodup) (p q : List Nat) (hp : p.length = rows.length) (h : Fin nM × Nat → ℝ) (h' : Fin nM → ℝ)
    (hh : ∀ x ∈ rows.zip (p ++ q), h x = h' x.1) : ((rows.zip (p ++ q)).map h).sum = ∑ m ∈ rows.toFinset, h' m := by
  rw [List.sum_toFinset _ hr]
  have e1 : (rows.zip (p ++ q)).map h = (rows.zip (p ++ q)).map (h' ∘ Prod.fst) := List.map_congr_left fun x hx => hh x hx
  rw [e1, ← List.map_map, List.map_fst_zip (by rw [List.length_append]; omega)]

theorem permGrad_eq (s : Fin nM → Fin nZ → Option ℝ) (rows : List (Fin nM)) (cols : List (Fin nZ)) (hr : rows.Nodup) (sel : Fin nM → Bool) (w : ℝ) (p q : List Nat)
    (hp : p.length = rows.length) (hs : tiny < w → ∀ m z, toF rows cols p m = some z → (s m z).isSome) :
    permGrad s rows cols sel w (p ++ q) =
      some (if w ≤ tiny then 0 else slope (fun m z => (s m z).getD 0) rows.toFinset sel (toF rows cols p) * w) := by
  classical
  unfold permGrad
  by_cases hw : w ≤ tiny
  · rw [if_pos hw, if_pos hw]
  · rw [if_neg hw, if_neg hw, if_pos]
    · congr 1
      unfold slope
      rw [Finset.sum_mul]
      refine zip_sum rows hr p q hp _ _ fun x hx => ?_
      obtain ⟨-, e⟩ := reads_toF s rows cols hr p hp q x.1 x.2 hx
      rw [e]
      cases toF rows cols p x.1 <;> split <;> simp
    · intro x hx
      obtain ⟨-, e⟩ := reads_toF s rows cols hr p hp q x.1 x.2 hx
      rw [e]
      cases h : toF rows cols p x.1 with
      | none => rfl
      | some z => exact hs (not_le.1 hw) _ _ h

/-- The gradient of a small partition before it is divided, in terms of associations. -/
theorem gradLoop_block (L : Fin nM → Fin nZ → ℝ) (pd : Fin nM → ℝ) (cl : Fin nZ → ℝ) (hL : ∀ m z, 0 ≤ L m z) (hpd : ∀ m, pd m ≤ 1)
    (hcl : ∀ z, 0 ≤ cl z) (s : Fin nM → Fin nZ → Option ℝ) (rows : List (Fin nM)) (cols : List (Fin nZ)) (hr : rows.Nodup) (hc : cols.Nodup)
    (h8 : rows.length + cols.length ≤ 8) (h0 : 0 < rows.length + cols.length) (fuel : Nat) (hf : 2 ^ 32 ≤ fuel) (sel : Fin nM → Bool)
    (hs : ∀ f ∈ Match rows.toFinset cols.toFinset, tiny < weight L pd cl rows.toFinset cols.toFinset f → ∀ m z, f m = some z → (s m z).isSome) :
    gradLoop (fun o => permGrad s rows cols sel (ex (permTerm L pd cl rows cols o)) o) fuel (PermLex.init rows.length cols.length true) 0 = some (∑ f ∈ Match rows.toFinset cols.toFinset,
      if weight L pd cl rows.toFinset cols.toFinset f ≤ tiny then 0 else
        slope (fun m z => (s m z).getD 0) rows.toFinset sel f * weight L pd cl rows.toFinset cols.toFinset f) := by
  classical
  obtain ⟨A, hA1, hA2, hA3⟩ := C04_enumeration rows.length cols.length h0
  have hnd : A.Nodup := hA1.imp (fun h => ne_of_lt h)
  have hlen := assignments_bound _ _ h8 A hnd (fun p hp => (hA2 p).1 hp)
  have hw : ∀ p ∈ A, ex (permTerm L pd cl rows cols (withUnused cols.length p)) = weight L pd cl rows.toFinset cols.toFinset (toF rows cols p) :=
    fun p hp => ex_permTerm L pd cl hL hpd hcl rows cols hr hc p ((hA2 p).1 hp)
  let G : (Fin nM → Option (Fin nZ)) → ℝ := fun f => if weight L pd cl rows.toFinset cols.toFinset f ≤ tiny then 0 else
        slope (fun m z => (s m z).getD 0) rows.toFinset sel f * weight L pd cl rows.toFinset cols.toFinset f
  rw [gradLoop_eq _ A.length _ fuel 0 (fun k => withUnused cols.length (A.getD k [])) (fun k => G (toF rows cols (A.getD k []))) (by omega)]
  · rw [zero_add]
    have h1 : ∑ k ∈ Finset.range A.length, G (toF rows cols (A.getD k [])) = ∑ p ∈ A.toFinset, G (toF rows cols p) := by
      rw [List.sum_toFinset _ hnd]; exact sum_getD (fun p => G (toF rows cols p)) A
    rw [h1]
    congr 1
    refine Finset.sum_bij (fun p _ => toF rows cols p) ?_ ?_ ?_ ?_
    · intro p hp; exact toF_mem rows cols hr hc p ((hA2 p).1 (List.mem_toFinset.1 hp))
    · intro p hp q hq h
      exact toF_inj rows cols hr hc p q ((hA2 p).1 (List.mem_toFinset.1 hp)) ((hA2 q).1 (List.mem_toFinset.1 hq)) h
    · intro f hf
      obtain ⟨p, hp, e⟩ := toF_surj rows cols hr hc f hf
      exact ⟨p, List.mem_toFinset.2 ((hA2 p).2 hp), e⟩
    · intro p hp; rfl
  · intro k hk
    refine ⟨(k + 1) % 2 ^ 32, by rw [Nat.mod_eq_of_lt (by omega)]; omega, ?_⟩
    rw [hA3, dif_pos hk, List.getD_eq_getElem?_getD, List.getElem?_eq_getElem hk, Option.getD_some]
  · exact ⟨_, by rw [hA3, dif_neg (by omega)]⟩
  · intro k hk
    have hm : A.getD k [] ∈ A := by
      rw [List.getD_eq_getElem?_getD, List.getElem?_eq_getElem hk, Option.getD_some]
      exact List.getElem_mem _
    have ha := (hA2 _).1 hm
    have hmem := toF_mem rows cols hr hc _ ha
    rw [hw _ hm]
    exact permGrad_eq s rows cols hr sel _ _ _ ha.1 (fun h m z e => hs _ hmem h m z e)

/-- The gradient of a small partition, in terms of associations. -/
theorem blockGrad_eq (L : Fin nM → Fin nZ → ℝ) (pd : Fin nM → ℝ) (cl : Fin nZ → ℝ) (hL : ∀ m z, 0 ≤ L m z) (hpd : ∀ m, pd m ≤ 1)
    (hcl : ∀ z, 0 ≤ cl z) (s : Fin nM → Fin nZ → Option ℝ) (rows : List (Fin nM)) (cols : List (Fin nZ)) (hr : rows.Nodup) (hc : cols.Nodup)
    (h8 : rows.length + cols.length ≤ 8) (h0 : 0 < rows.length + cols.length) (fuel : Nat) (hf : 2 ^ 32 ≤ fuel) (sel : Fin nM → Bool) (pl : ℝ) (hpl : 0 < pl)
    (hs : ∀ f ∈ Match rows.toFinset cols.toFinset, tiny < weight L pd cl rows.toFinset cols.toFinset f → ∀ m z, f m = some z → (s m z).isSome) :
    blockGrad L pd cl s fuel rows cols sel pl = some ((∑ f ∈ Match rows.toFinset cols.toFinset,
      if weight L pd cl rows.toFinset cols.toFinset f ≤ tiny then 0 else
        slope (fun m z => (s m z).getD 0) rows.toFinset sel f * weight L pd cl rows.toFinset cols.toFinset f) / pl) := by
  unfold blockGrad
  rw [gradLoop_block L pd cl hL hpd hcl s rows cols hr hc h8 h0 fuel hf sel hs, Option.map_some, if_pos hpl]

/-! ### derivatives -/

/-- The likelihood of a partition moves with the entries of its table. -/
theorem S_deriv (L : ℝ → Fin nM → Fin nZ → ℝ) (miss : Fin nM → ℝ) (cl : Fin nZ → ℝ) (δ : Fin nM → Fin nZ → ℝ) (θ : ℝ) (R : Finset (Fin nM)) (C : Finset (Fin nZ))
    (hd : ∀ m z, HasDerivAt (fun t => L t m z) (L θ m z * δ m z) θ) :
    HasDerivAt (fun t => S (L t) miss cl R C) (∑ f ∈ Match R C, (∑ m ∈ R, (f m).elim 0 (δ m)) * ((∏ m ∈ R, rowW (L θ) miss f m) * ∏ z ∈ C, colW cl f z)) θ := by
  classical
  unfold S
  refine HasDerivAt.fun_sum fun f _ => ?_
  have h1 : ∀ m ∈ R, HasDerivAt (fun t => rowW (L t) miss f m) (rowW (L θ) miss f m * (f m).elim 0 (δ m)) θ := by
    intro m _
    unfold rowW
    cases f m with
    | none => simpa using hasDerivAt_const θ (miss m)
    | some z => exact hd m z
  have h2 := (HasDerivAt.fun_finset_prod h1).mul_const (∏ z ∈ C, colW cl f z)
  refine h2.congr_deriv ?_
  rw [← mul_assoc]
  congr 1
  rw [Finset.sum_mul]
  refine Finset.sum_congr rfl fun m hm => ?_
  rw [smul_eq_mul, ← mul_assoc, Finset.prod_erase_mul _ _ hm, mul_comm]

/-! ### the gradient -/

/-- The gradient of a partition whose entries are all equal to `c` is `c` times the derivative of the logarithm of its likelihood. -/
theorem C253_gradient_scaled (L : ℝ → Fin nM → Fin nZ → ℝ) (θ c : ℝ) (pd : Fin nM → ℝ) (cl : Fin nZ → ℝ) (d : Fin nM → Fin nZ → ℝ) (sel : Fin nM → Bool)
    (hL : ∀ m z, 0 ≤ L θ m z) (hpd : ∀ m, pd m ≤ 1) (hcl : ∀ z, 0 ≤ cl z)
    (hd : ∀ m z, HasDerivAt (fun t => L t m z) (L θ m z * if sel m then d m z else 0) θ)
    (s : Fin nM → Fin nZ → Option ℝ) (rows : List (Fin nM)) (cols : List (Fin nZ)) (hr : rows.Nodup) (hc : cols.Nodup)
    (h8 : rows.length + cols.length ≤ 8) (h0 : 0 < rows.length + cols.length) (fuel : Nat) (hf : 2 ^ 32 ≤ fuel)
    (hs : ∀ m ∈ rows, ∀ z ∈ cols, s m z = some (L θ m z * d m z)) (hb : ∀ m ∈ rows, ∀ z ∈ cols, L θ m z = c) (he : Real.exp (-1000) ≤ c)
    (ht : ∀ f ∈ Match rows.toFinset cols.toFinset, tiny < (∏ m ∈ rows.toFinset, rowW (L θ) (fun m => 1 - pd m) f m) * ∏ z ∈ cols.toFinset, colW cl f z) :
    ∃ D, HasDerivAt (fun t => Real.log (S (L t) (fun m => 1 - pd m) cl rows.toFinset cols.toFinset)) D θ ∧
      lexLoop (fun o => ex (permTerm (L θ) pd cl rows cols o)) fuel (PermLex.init rows.length cols.length true) 0 =
        some (S (L θ) (fun m => 1 - pd m) cl rows.toFinset cols.toFinset) ∧
      blockGrad (L θ) pd cl s fuel rows cols sel (S (L θ) (fun m => 1 - pd m) cl rows.toFinset cols.toFinset) = some (c * D) := by
  classical
  set R := rows.toFinset with hR
  set C := cols.toFinset with hC
  have hmem : ∀ f ∈ Match R C, ∀ m z, f m = some z → m ∈ rows ∧ z ∈ cols := by
    intro f hf m z e
    rw [mem_Match] at hf
    refine ⟨?_, List.mem_toFinset.1 (hf.2.1 m z e)⟩
    by_contra h
    rw [hf.1 m (fun h' => h (List.mem_toFinset.1 h'))] at e
    cases e
  have hwt : ∀ f ∈ Match R C, weight (L θ) pd cl R C f = (∏ m ∈ R, rowW (L θ) (fun m => 1 - pd m) f m) * ∏ z ∈ C, colW cl f z := by
    intro f hf
    unfold weight
    congr 1
    refine Finset.prod_congr rfl fun m _ => ?_
    unfold rowW
    cases e : f m with
    | none => rfl
    | some z =>
      obtain ⟨h1, h2⟩ := hmem f hf m z e
      exact max_eq_left (by rw [hb m h1 z h2]; exact he)
  have hS : S (fun m z => max (L θ m z) eps) (fun m => 1 - pd m) cl R C = S (L θ) (fun m => 1 - pd m) cl R C :=
    Finset.sum_congr rfl fun f hf => hwt f hf
  have ht0 : (0 : ℝ) < tiny := by unfold tiny; positivity
  have hne : (Match R C).Nonempty := ⟨fun _ => none, mem_Match.2 ⟨fun _ _ => rfl, (fun _ _ h => by cases h), (fun _ _ _ h => by cases h)⟩⟩
  have hpos : 0 < S (L θ) (fun m => 1 - pd m) cl R C := Finset.sum_pos (fun f hf => ht0.trans (ht f hf)) hne
  refine ⟨_, (S_deriv L _ cl (fun m z => if sel m then d m z else 0) θ R C hd).log hpos.ne', ?_, ?_⟩
  · rw [lexLoop_block (L θ) pd cl hL hpd hcl rows cols hr hc h8 h0 fuel hf]
    exact congrArg some hS
  · rw [blockGrad_eq (L θ) pd cl hL hpd hcl s rows cols hr hc h8 h0 fuel hf sel _ hpos]
    · rw [← mul_div_assoc, Finset.mul_sum]
      congr 2
      refine Finset.sum_congr rfl fun f hf => ?_
      rw [if_neg (by rw [hwt f hf]; exact not_le.2 (ht f hf)), hwt f hf]
      suffices hsl : slope (fun m z => (s m z).getD 0) R sel f = c * ∑ m ∈ R, (f m).elim 0 (fun z => if sel m then d m z else 0) by
        rw [hsl, mul_assoc]
      unfold slope
      rw [Finset.mul_sum]
      refine Finset.sum_congr rfl fun m _ => ?_
      cases e : f m with
      | none => simp
      | some z =>
        obtain ⟨h1, h2⟩ := hmem f hf m z e
        simp only [Option.elim_some]
        rw [hs m h1 z h2, Option.getD_some, hb m h1 z h2]
        split <;> simp
    · intro f hf _ m z e
      obtain ⟨h1, h2⟩ := hmem f hf m z e
      rw [hs m h1 z h2]
      rfl

/-- C253 (partial), gradient: where the entries of a partition are 1, the gradient computed for a landmark (or, with all rows chosen, the pose) is the
derivative of the logarithm of the likelihood of the partition. Missing: all other entries (`C253_gradient_violated`). -/
theorem C253_gradient_partial (L : ℝ → Fin nM → Fin nZ → ℝ) (θ : ℝ) (pd : Fin nM → ℝ) (cl : Fin nZ → ℝ) (d : Fin nM → Fin nZ → ℝ) (sel : Fin nM → Bool)
    (hL : ∀ m z, 0 ≤ L θ m z) (hpd : ∀ m, pd m ≤ 1) (hcl : ∀ z, 0 ≤ cl z)
    (hd : ∀ m z, HasDerivAt (fun t => L t m z) (L θ m z * if sel m then d m z else 0) θ)
    (s : Fin nM → Fin nZ → Option ℝ) (rows : List (Fin nM)) (cols : List (Fin nZ)) (hr : rows.Nodup) (hc : cols.Nodup)
    (h8 : rows.length + cols.length ≤ 8) (h0 : 0 < rows.length + cols.length) (fuel : Nat) (hf : 2 ^ 32 ≤ fuel)
    (hs : ∀ m ∈ rows, ∀ z ∈ cols, s m z = some (L θ m z * d m z)) (hb : ∀ m ∈ rows, ∀ z ∈ cols, L θ m z = 1)
    (ht : ∀ f ∈ Match rows.toFinset cols.toFinset, tiny < (∏ m ∈ rows.toFinset, rowW (L θ) (fun m => 1 - pd m) f m) * ∏ z ∈ cols.toFinset, colW cl f z) :
    ∃ D, HasDerivAt (fun t => Real.log (S (L t) (fun m => 1 - pd m) cl rows.toFinset cols.toFinset)) D θ ∧
      blockGrad (L θ) pd cl s fuel rows cols sel (S (L θ) (fun m => 1 - pd m) cl rows.toFinset cols.toFinset) = some D := by
  obtain ⟨D, h1, -, h2⟩ := C253_gradient_scaled L θ 1 pd cl d sel hL hpd hcl hd s rows cols hr hc h8 h0 fuel hf hs hb (Real.exp_le_one_iff.2 (by norm_num)) ht
  exact ⟨D, h1, by rw [h2, one_mul]⟩

/-! ### the value -/

/-- The likelihood of a scan: unknown measurements come from a landmark or are clutter, false alarms are none of the landmarks, and measurements of a
known landmark come from it. -/
noncomputable def expected (S : Scan nM nZ) : ℝ :=
  total (fun m n => if S.da n = -1 ∨ S.da n = (m.val : Int) then S.pd m * S.g m n else 0) (fun m => 1 - S.pd m)
    (fun n => if S.da n = -1 then S.ci n else if S.da n = -2 then 1 else 0) / S.integral

/-- C253 (partial), value: with detection probabilities of 0.9, no measurements of known landmarks, at least one measurement that is not a known false alarm,
likelihoods not below the threshold and partitions of at most eight landmarks and measurements, the value is the likelihood of the scan. -/
theorem C253_value_partial (S : Scan nM nZ) (murty : List (Fin nM) → List (Fin nZ) → Option ℝ) (fuel ncc : Nat) (lab : Fin nM ⊕ Fin nZ → Nat)
    (hn : 0 < nM) (hpd : ∀ m, S.pd m = 9 / 10) (hda : ∀ n, S.da n = -1 ∨ S.da n = -2) (hex : ∃ n, S.da n = -1) (hci : ∀ n, 0 ≤ S.ci n)
    (hthr : Real.exp (-1000) ≤ S.thr) (hg : ∀ m n, S.thr ≤ S.g m n * S.pd m) (hcomp : IsComponents S.table 0 ncc lab) (hsmall : nM + nZ ≤ 8) (hf : 2 ^ 32 ≤ fuel) :
    lik S murty fuel ncc lab = some (expected S) := by
  have ht : S.table = fun m n => if S.da n = -1 then S.pd m * S.g m n else 0 := by
    funext m n
    unfold Scan.table entry
    have h1 : ¬ S.g m n * used (S.pd m) < S.thr := by
      have := hg m n
      rw [hpd] at this
      exact not_lt.2 this
    rcases hda n with h | h
    · simp only [h, ne_eq, not_true_eq_false, and_false, if_false, if_true]
      rw [if_neg (show ¬ (0 : Int) ≤ -1 by decide), if_neg h1]
      simp only [used, hpd]
      ring
    · rw [if_pos ⟨by rw [h]; omega, by rw [h]; decide⟩, if_neg (by rw [h]; decide)]
  have hpos : ∀ m n, S.da n = -1 → Real.exp (-1000) ≤ S.table m n := by
    intro m n h
    rw [ht]
    simp only [h, if_true]
    have := hg m n
    linarith
  have h0 : ∀ m n, 0 ≤ S.table m n := by
    intro m n
    rcases hda n with h | h
    · exact (Real.exp_pos _).le.trans (hpos m n h)
    · rw [ht]
      simp [h]
  have key := C42_exact_partial S.table (fun m => used (S.pd m)) (fun n => clut (S.da n) (S.ci n)) S.integral murty fuel ncc lab hcomp h0
    (fun m => by unfold used; norm_num)
    (fun n => by
      unfold clut
      split
      · exact hci n
      · split <;> norm_num)
    (by
      intro R C _ _ _
      have h1 := Finset.card_le_univ R
      have h2 := Finset.card_le_univ C
      simp only [Fintype.card_fin] at h1 h2
      omega) hf
    (fun m => by
      obtain ⟨n, h⟩ := hex
      exact ⟨n, (Real.exp_pos _).trans_le (hpos m n h)⟩)
    (fun m n h => by
      refine hpos m n ?_
      by_contra hne
      have hz : ∀ i, S.table i n = 0 := fun i => by rw [ht]; simp [hne]
      cases linked_symm h with
      | row i _ _ h _ => exact absurd h (by rw [hz]; exact lt_irrefl _))
  unfold lik
  simp only
  rw [if_neg hn.ne']
  refine key.trans ?_
  unfold expected
  congr 2
  have e1 : S.table = fun m n => if S.da n = -1 ∨ S.da n = (m.val : Int) then S.pd m * S.g m n else 0 := by
    rw [ht]
    funext m n
    rcases hda n with h | h
    · simp [h]
    · rw [if_neg (by rw [h]; decide), if_neg (by rw [h]; omega)]
  have e2 : (fun m => 1 - used (S.pd m)) = fun m => 1 - S.pd m := by
    funext m
    rw [hpd]
    rfl
  rw [e1, e2]
  rfl

theorem total_one (L : Fin 1 → Fin 1 → ℝ) (miss cl : Fin 1 → ℝ) : Assoc.total L miss cl = L 0 0 + miss 0 * cl 0 := by
  classical
  unfold Assoc.total
  have h : (Finset.univ : Finset (Fin 1 → Option (Fin 1))).filter OneToOne = {fun _ => some 0, fun _ => none} := by
    ext f
    simp only [Finset.mem_filter, Finset.mem_univ, true_and, Finset.mem_insert, Finset.mem_singleton]
    constructor
    · intro _
      cases e : f 0 with
      | none => right; funext i; rw [Subsingleton.elim i 0, e]
      | some z => left; funext i; rw [Subsingleton.elim i 0, e, Subsingleton.elim z 0]
    · intro _ a b z _ _
      exact Subsingleton.elim _ _
  rw [h, Finset.sum_pair (fun e => by have := congrFun e 0; cases this)]
  simp

/-- The detection probabilities of the measurement model have no influence. -/
theorem C253_ignored_violated (S : Scan nM nZ) (pd : Fin nM → ℝ) : lik { S with pd := pd } = lik S := rfl

theorem one_comp (L : Fin 1 → Fin 1 → ℝ) (h : 0 < L 0 0) : IsComponents L 0 1 (fun _ => 0) := by
  refine ⟨fun _ => one_pos, fun x hx => ⟨.inl 0, by omega⟩, fun u v => ⟨fun _ => ?_, fun _ => rfl⟩⟩
  have e : Conn L 0 (.inl 0) (.inr 0) := Relation.EqvGen.rel _ _ (.mk 0 0 h)
  have r : ∀ w : Fin 1 ⊕ Fin 1, Conn L 0 w (.inr 0) := by
    rintro (i | j)
    · rw [Subsingleton.elim i 0]; exact e
    · rw [Subsingleton.elim j 0]; exact Relation.EqvGen.refl _
  exact Relation.EqvGen.trans _ _ _ (r u) (Relation.EqvGen.symm _ _ (r v))

theorem lik_one (S : Scan 1 1) (murty : List (Fin 1) → List (Fin 1) → Option ℝ) (fuel ncc : Nat) (lab : Fin 1 ⊕ Fin 1 → Nat) (hcomp : IsComponents S.table 0 ncc lab)
    (hf : 2 ^ 32 ≤ fuel) (ht : Real.exp (-1000) ≤ S.table 0 0) (hci : 0 ≤ S.ci 0) :
    lik S murty fuel ncc lab = some ((S.table 0 0 + 1 / 10 * clut (S.da 0) (S.ci 0)) / S.integral) := by
  have ht' : ∀ m n, Real.exp (-1000) ≤ S.table m n := fun m n => by rw [Subsingleton.elim m 0, Subsingleton.elim n 0]; exact ht
  have key := C42_exact_partial S.table (fun m => used (S.pd m)) (fun n => clut (S.da n) (S.ci n)) S.integral murty fuel ncc lab hcomp
    (fun m n => (Real.exp_pos _).le.trans (ht' m n)) (fun m => by unfold used; norm_num)
    (fun n => by
      rw [Subsingleton.elim n 0]
      unfold clut
      split
      · exact hci
      · split <;> norm_num)
    (by
      intro R C _ _ _
      have h1 := Finset.card_le_univ R
      have h2 := Finset.card_le_univ C
      simp only [Fintype.card_fin] at h1 h2
      omega) hf (fun m => ⟨0, (Real.exp_pos _).trans_le (ht' m 0)⟩) (fun m n _ => ht' m n)
  unfold lik
  simp only
  rw [if_neg (by decide)]
  refine key.trans ?_
  rw [total_one]
  simp only [used]
  norm_num

/-- C253 (negation): with one landmark of detection probability 1/2, one measurement with Gaussian likelihood 2 and clutter intensity 1, the value is 1.9; the
likelihood is 1.5. -/
theorem C253_violated : ∃ S : Scan 1 1, IsComponents S.table 0 1 (fun _ => 0) ∧
    ∀ murty fuel, 2 ^ 32 ≤ fuel → lik S murty fuel 1 (fun _ => 0) = some (19 / 10) ∧ expected S = 3 / 2 := by
  let S : Scan 1 1 := ⟨fun _ _ => 2, fun _ => 1 / 2, fun _ => 1, fun _ => -1, 1 / 1000, 1⟩
  have ht : S.table 0 0 = 9 / 5 := by
    simp [S, Scan.table, entry, used]
    norm_num
  refine ⟨S, one_comp _ (by rw [ht]; norm_num), fun murty fuel hf => ⟨?_, ?_⟩⟩
  · rw [lik_one S murty fuel 1 _ (one_comp _ (by rw [ht]; norm_num)) hf (by rw [ht]; exact (Real.exp_le_one_iff.2 (by norm_num)).trans (by norm_num)) (by norm_num [S]), ht]
    simp [S, clut]
    norm_num
  · unfold expected
    rw [total_one]
    simp [S]
    norm_num

/-- C253 (negation): a measurement known to come from the landmark is weighed without the detection probability, 2 instead of 1.8. -/
theorem C253_known_violated : ∃ S : Scan 1 1, S.pd 0 = 9 / 10 ∧ IsComponents S.table 0 1 (fun _ => 0) ∧
    ∀ murty fuel, 2 ^ 32 ≤ fuel → lik S murty fuel 1 (fun _ => 0) = some 2 ∧ expected S = 9 / 5 := by
  let S : Scan 1 1 := ⟨fun _ _ => 2, fun _ => 9 / 10, fun _ => 1, fun _ => 0, 1 / 1000, 1⟩
  have ht : S.table 0 0 = 2 := by
    simp [S, Scan.table, entry]
    norm_num
  refine ⟨S, rfl, one_comp _ (by rw [ht]; norm_num), fun murty fuel hf => ⟨?_, ?_⟩⟩
  · rw [lik_one S murty fuel 1 _ (one_comp _ (by rw [ht]; norm_num)) hf (by rw [ht]; exact (Real.exp_le_one_iff.2 (by norm_num)).trans (by norm_num)) (by norm_num [S]), ht]
    simp [S, clut]
  · unfold expected
    rw [total_one]
    simp [S]
    norm_num

theorem exp_half : Real.exp (-1) ≤ 1 / 2 := by
  have := Real.add_one_le_exp (1 : ℝ)
  rw [Real.exp_neg, one_div]
  exact inv_anti₀ (by norm_num) (by linarith)

/-- The table of the example for the gradient: the entry is `e^t / 2`, so that the derivative of its logarithm is 1. -/
noncomputable def moving (t : ℝ) : Fin 1 → Fin 1 → ℝ := fun _ _ => Real.exp t / 2

/-- C253 (negation), gradient: what is stored for a pair is the derivative of the logarithm of the likelihood times the likelihood itself; it is stored for just the pairs that can belong together and
whose likelihood is not below the threshold. -/
theorem C253_stored_violated (da : Int) (m : Nat) (g pd thr d : ℝ) :
    (store da m g pd thr d = none ↔ (da ≠ m ∧ da ≠ -1) ∨ (if 0 ≤ da then g else g * pd) < thr) ∧ ∀ v, store da m g pd thr d = some v → v = entry da m g pd thr * d := by
  unfold store entry
  by_cases h : da ≠ m ∧ da ≠ -1
  · rw [if_pos h]
    exact ⟨⟨fun _ => Or.inl h, fun _ => rfl⟩, fun v hv => by cases hv⟩
  · rw [if_neg h, if_neg h]
    by_cases h' : (if 0 ≤ da then g else g * pd) < thr
    · dsimp only
      rw [if_pos h']
      exact ⟨⟨fun _ => Or.inr h', fun _ => rfl⟩, fun v hv => by cases hv⟩
    · dsimp only
      rw [if_neg h', if_neg h']
      exact ⟨⟨fun e => (by cases e), fun e => (e.elim h h').elim⟩, fun v hv => (Option.some.inj hv).symm⟩

/-- C253 (negation), gradient: with one landmark and one measurement, an entry of 1/2 whose logarithm has derivative 1, detection probability 0.9 and clutter
intensity 1, the gradient is 5/12; the derivative of the logarithm of the likelihood is 5/6. -/
theorem C253_gradient_violated (fuel : Nat) (hf : 2 ^ 32 ≤ fuel) :
    HasDerivAt (fun t => Real.log (total (moving t) (fun _ => 1 - 9 / 10) (fun _ => 1))) (5 / 6) 0 ∧
      (moving 0 = fun _ _ => entry (-1) 0 (5 / 9) (9 / 10) (1 / 100)) ∧
      blockGrad (moving 0) (fun _ => 9 / 10) (fun _ => 1) (fun _ _ => store (-1) 0 (5 / 9) (9 / 10) (1 / 100) 1) fuel [0] [0] (fun _ => true)
        (total (moving 0) (fun _ => 1 - 9 / 10) (fun _ => 1)) = some (5 / 12) := by
  have hst : store (-1) 0 (5 / 9) (9 / 10) (1 / 100) 1 = some (moving 0 0 0 * 1) := by
    norm_num [store, moving]
  have hen : moving 0 = fun _ _ => entry (-1) 0 (5 / 9) (9 / 10) (1 / 100) := by
    funext m z
    norm_num [entry, moving]
  rw [hst]
  have hu : ([0] : List (Fin 1)).toFinset = Finset.univ := by ext i; simp [Subsingleton.elim i 0]
  have hS : ∀ t, S (moving t) (fun _ => 1 - 9 / 10) (fun _ => 1) ([0] : List (Fin 1)).toFinset ([0] : List (Fin 1)).toFinset =
      total (moving t) (fun _ => 1 - 9 / 10) (fun _ => 1) := fun t => by rw [hu, S_univ]
  have hm0 : ∀ m z, moving 0 m z = 1 / 2 := fun _ _ => by simp [moving]
  have hmd : ∀ m z, HasDerivAt (fun t => moving t m z) (moving 0 m z * if (fun _ : Fin 1 => true) m then 1 else 0) 0 := by
    intro m z
    have := (Real.hasDerivAt_exp (0 : ℝ)).div_const 2
    refine this.congr_deriv ?_
    simp [moving]
  have htiny : tiny < 1 / 10 := by
    unfold tiny
    rw [one_div_lt_one_div (by positivity) (by norm_num)]
    calc (10 : ℝ) < 2 ^ 4 := by norm_num
      _ ≤ 2 ^ 1075 := pow_le_pow_right₀ (by norm_num) (by norm_num)
  have hD : HasDerivAt (fun t => Real.log (total (moving t) (fun _ => 1 - 9 / 10) (fun _ => 1))) (5 / 6) 0 := by
    have h1 : (fun t => total (moving t) (fun _ => 1 - 9 / 10) (fun _ => 1)) = fun t => Real.exp t / 2 + 1 / 10 := by
      funext t
      rw [total_one]
      unfold moving
      norm_num
    have h2 : HasDerivAt (fun t => Real.exp t / 2 + 1 / 10) (1 / 2) 0 := by
      have := ((Real.hasDerivAt_exp (0 : ℝ)).div_const 2).add_const (1 / 10)
      simpa using this
    have h3 := h2.log (by rw [Real.exp_zero]; norm_num)
    rw [show (fun t => Real.log (total (moving t) (fun _ => 1 - 9 / 10) (fun _ => 1))) = fun t => Real.log (Real.exp t / 2 + 1 / 10) from
      funext fun t => congrArg Real.log (congrFun h1 t)]
    refine h3.congr_deriv ?_
    rw [Real.exp_zero]
    norm_num
  refine ⟨hD, hen, ?_⟩
  obtain ⟨D, h1, -, h2⟩ := C253_gradient_scaled moving 0 (1 / 2) (fun _ => 9 / 10) (fun _ => 1) (fun _ _ => 1) (fun _ => true)
    (fun m z => by rw [hm0]; norm_num) (fun _ => by norm_num) (fun _ => by norm_num) hmd (fun _ _ => some (moving 0 0 0 * 1)) [0] [0] (by simp) (by simp) (by simp)
    (by simp) fuel hf (fun m _ z _ => by rw [hm0, hm0]) (fun m _ z _ => hm0 m z) ((Real.exp_le_exp.2 (by norm_num)).trans (exp_half)) (by
      intro f _
      rw [hu, Fin.prod_univ_one, Fin.prod_univ_one]
      unfold rowW colW
      cases e : f 0 with
      | none =>
        rw [if_neg (by rintro ⟨m, h⟩; rw [Subsingleton.elim m 0, e] at h; cases h)]
        simp only
        norm_num
        linarith
      | some z =>
        simp only [hm0]
        split <;> linarith)
  simp only [hS] at h1 h2
  rw [h2, h1.unique hD]
  norm_num

/-- Where the likelihoods are at most `e^30`, no gradient is read that was not stored: pairs below the threshold only occur in associations whose likelihood
is 0 in doubles. -/
theorem C253_no_exception (S : Scan nM nZ) (d : Fin nM → Fin nZ → ℝ) (rows : List (Fin nM)) (cols : List (Fin nZ)) (hr : rows.Nodup) (hc : cols.Nodup)
    (h8 : rows.length + cols.length ≤ 8) (h0 : 0 < rows.length + cols.length) (fuel : Nat) (hf : 2 ^ 32 ≤ fuel) (sel : Fin nM → Bool) (pl : ℝ)
    (hg : ∀ m n, 0 ≤ S.g m n ∧ S.g m n ≤ Real.exp 30) (hci : ∀ n, 0 ≤ S.ci n ∧ S.ci n ≤ Real.exp 30) :
    (blockGrad S.table (fun m => used (S.pd m)) (fun n => clut (S.da n) (S.ci n))
      (fun m n => store (S.da n) m (S.g m n) (used (S.pd m)) S.thr (d m n)) fuel rows cols sel pl).isSome := by
  classical
  have h1e : (1 : ℝ) ≤ Real.exp 30 := Real.one_le_exp (by norm_num)
  have hent : ∀ m n, 0 ≤ S.table m n ∧ S.table m n ≤ Real.exp 30 := by
    intro m n
    have := hg m n
    unfold Scan.table entry used
    split
    · exact ⟨le_rfl, by linarith⟩
    · have hx : ∀ x : ℝ, 0 ≤ x → x ≤ Real.exp 30 → 0 ≤ (if x < S.thr then 0 else x) ∧ (if x < S.thr then 0 else x) ≤ Real.exp 30 := by
        intro x a b
        split
        · exact ⟨le_rfl, by linarith⟩
        · exact ⟨a, b⟩
      refine hx _ ?_ ?_ <;> split <;> linarith
  have hcl : ∀ n, 0 ≤ clut (S.da n) (S.ci n) ∧ clut (S.da n) (S.ci n) ≤ Real.exp 30 := by
    intro n
    unfold clut
    split
    · exact hci n
    · split
      · exact ⟨by norm_num, h1e⟩
      · exact ⟨le_rfl, by linarith⟩
  unfold blockGrad
  rw [gradLoop_block S.table (fun m => used (S.pd m)) (fun n => clut (S.da n) (S.ci n)) (fun m n => (hent m n).1) (fun m => by unfold used; norm_num) (fun n => (hcl n).1) _ rows cols
    hr hc h8 h0 fuel hf sel]
  · rfl
  · intro f hf' hw m z e
    by_contra hno
    rw [mem_Match] at hf'
    have hmR : m ∈ rows.toFinset := by
      by_contra h
      rw [hf'.1 m h] at e
      cases e
    have hz0 : S.table m z = 0 := by
      unfold Scan.table entry
      unfold store at hno
      split
      · rfl
      · rename_i h
        rw [if_neg h] at hno
        simp only at hno ⊢
        by_cases h2 : (if 0 ≤ S.da z then S.g m z else S.g m z * used (S.pd m)) < S.thr
        · rw [if_pos h2]
        · rw [if_neg h2] at hno
          exact absurd rfl hno
    have hrow : ∀ i, 0 ≤ rowW (fun m z => max (S.table m z) (Real.exp (-1000))) (fun m => 1 - used (S.pd m)) f i ∧
        rowW (fun m z => max (S.table m z) (Real.exp (-1000))) (fun m => 1 - used (S.pd m)) f i ≤ Real.exp 30 := by
      intro i
      unfold rowW
      cases f i with
      | none => unfold used; constructor <;> norm_num <;> linarith
      | some w => exact ⟨(hent i w).1.trans (le_max_left _ _), max_le (hent i w).2 (Real.exp_le_exp.2 (by norm_num))⟩
    have hcol : ∀ i, 0 ≤ colW (fun n => clut (S.da n) (S.ci n)) f i ∧ colW (fun n => clut (S.da n) (S.ci n)) f i ≤ Real.exp 30 := by
      intro i
      unfold colW
      split
      · exact ⟨zero_le_one, h1e⟩
      · exact hcl i
    have hm : rowW (fun m z => max (S.table m z) (Real.exp (-1000))) (fun m => 1 - used (S.pd m)) f m = Real.exp (-1000) := by
      unfold rowW
      rw [e]
      simp only
      rw [hz0]
      exact max_eq_right (Real.exp_pos _).le
    have hp1 : ∏ i ∈ rows.toFinset.erase m, rowW (fun m z => max (S.table m z) (Real.exp (-1000))) (fun m => 1 - used (S.pd m)) f i ≤ Real.exp 30 ^ (rows.toFinset.erase m).card := by
      rw [← Finset.prod_const]
      exact Finset.prod_le_prod (fun i _ => (hrow i).1) (fun i _ => (hrow i).2)
    have hp2 : ∏ i ∈ cols.toFinset, colW (fun n => clut (S.da n) (S.ci n)) f i ≤ Real.exp 30 ^ cols.toFinset.card := by
      rw [← Finset.prod_const]
      exact Finset.prod_le_prod (fun i _ => (hcol i).1) (fun i _ => (hcol i).2)
    have hcard : (rows.toFinset.erase m).card + cols.toFinset.card ≤ 7 := by
      have : 0 < rows.length := List.length_pos_of_mem (List.mem_toFinset.1 hmR)
      rw [Finset.card_erase_of_mem hmR, List.toFinset_card_of_nodup hr, List.toFinset_card_of_nodup hc]
      omega
    have hle : weight S.table (fun m => used (S.pd m)) (fun n => clut (S.da n) (S.ci n)) rows.toFinset cols.toFinset f ≤ Real.exp (-1000) * Real.exp 30 ^ 7 := by
      unfold weight
      rw [← Finset.mul_prod_erase _ _ hmR, hm, mul_assoc]
      refine mul_le_mul_of_nonneg_left ?_ (Real.exp_pos _).le
      refine (mul_le_mul hp1 hp2 (Finset.prod_nonneg fun i _ => (hcol i).1) (pow_nonneg (Real.exp_pos _).le _)).trans ?_
      rw [← pow_add]
      exact pow_le_pow_right₀ h1e hcard
    have hlast : Real.exp (-1000) * Real.exp 30 ^ 7 ≤ tiny := by
      rw [← Real.exp_nat_mul, ← Real.exp_add]
      unfold tiny
      rw [show (-1000 + ((7 : ℕ) : ℝ) * 30 : ℝ) = -(((790 : ℕ) : ℝ) * 1) by norm_num, Real.exp_neg, Real.exp_nat_mul, one_div]
      refine inv_anti₀ (by positivity) ?_
      have h27 : (2.7 : ℝ) ≤ Real.exp 1 := by have := Real.exp_one_gt_d9; linarith
      refine le_trans ?_ (pow_le_pow_left₀ (by norm_num) h27 790)
      rw [show 1075 = 215 * 5 by norm_num, show 790 = 158 * 5 by norm_num, pow_mul, pow_mul]
      exact pow_le_pow_left₀ (by positivity) (by norm_num) 5
    exact absurd hw (not_lt.2 (hle.trans hlast))

/-- Hypotheses of `C253_value_partial` and `C253_no_exception` are met by a scan with one landmark and one measurement. -/
example : ∃ S : Scan 1 1, (∀ m, S.pd m = 9 / 10) ∧ (∀ n, S.da n = -1 ∨ S.da n = -2) ∧ (∃ n, S.da n = -1) ∧ (∀ m n, S.thr ≤ S.g m n * S.pd m) ∧
    IsComponents S.table 0 1 (fun _ => 0) ∧ expected S = 19 / 10 := by
  let S : Scan 1 1 := ⟨fun _ _ => 2, fun _ => 9 / 10, fun _ => 1, fun _ => -1, 1 / 1000, 1⟩
  refine ⟨S, fun _ => rfl, fun _ => Or.inl rfl, ⟨0, rfl⟩, fun _ _ => by norm_num [S], one_comp _ ?_, ?_⟩
  · simp [S, Scan.table, entry, used]
    norm_num
  · unfold expected
    rw [total_one]
    simp [S]
    norm_num

/-- Hypotheses of `C253_gradient_partial` are met by a landmark and a measurement with entry `e^t` at `t = 0`. -/
example : ∃ D, HasDerivAt (fun t => Real.log (S (fun _ _ => Real.exp t : Fin 1 → Fin 1 → ℝ) (fun _ => 1 - 9 / 10) (fun _ => 1) [0].toFinset [0].toFinset)) D 0 ∧
    blockGrad (fun _ _ => Real.exp 0 : Fin 1 → Fin 1 → ℝ) (fun _ => 9 / 10) (fun _ => 1) (fun _ _ => some (Real.exp 0 * 1)) (2 ^ 32) [0] [0] (fun _ => true)
      (S (fun _ _ => Real.exp 0 : Fin 1 → Fin 1 → ℝ) (fun _ => 1 - 9 / 10) (fun _ => 1) [0].toFinset [0].toFinset) = some D := by
  have htiny : tiny < 1 / 10 := by
    unfold tiny
    rw [one_div_lt_one_div (by positivity) (by norm_num)]
    calc (10 : ℝ) < 2 ^ 4 := by norm_num
      _ ≤ 2 ^ 1075 := pow_le_pow_right₀ (by norm_num) (by norm_num)
  have hu : ([0] : List (Fin 1)).toFinset = Finset.univ := by ext i; simp [Subsingleton.elim i 0]
  refine C253_gradient_partial (fun t _ _ => Real.exp t) 0 (fun _ => 9 / 10) (fun _ => 1) (fun _ _ => 1) (fun _ => true) (fun _ _ => (Real.exp_pos _).le)
    (fun _ => by norm_num) (fun _ => by norm_num) (fun _ _ => by simpa using Real.hasDerivAt_exp (0 : ℝ)) _ [0] [0] (by simp) (by simp) (by simp) (by simp) _ le_rfl
    (fun _ _ _ _ => rfl) (fun _ _ _ _ => Real.exp_zero) ?_
  intro f _
  rw [hu, Fin.prod_univ_one, Fin.prod_univ_one]
  unfold rowW colW
  cases e : f 0 with
  | none =>
    rw [if_neg (by rintro ⟨m, h⟩; rw [Subsingleton.elim m 0, e] at h; cases h)]
    simp only
    norm_num
    linarith
  | some z =>
    simp only [Real.exp_zero]
    split <;> linarith

end CeresLinProps
end RFS
