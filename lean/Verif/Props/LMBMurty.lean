import Verif.Model.LMBMurty
import Verif.Lemmas.RFSBlock
import Verif.Props.LMB

/-!
C48, for partitions that go through Murty's algorithm.

Specification: an association gives each track of the partition at most one of its measurements, and each measurement at most one track (`OneToOne`). Its weight is the product of the likelihoods of
its pairs (raised to `e^-1000`) and of the probabilities that the other tracks were not seen.
-/

set_option linter.unusedSectionVars false

namespace RFS
namespace LMBProps
open GM GMB CBM Partition RFSLik Assoc PartitionProps RFSLikProps LMB MurtyBlockProps

variable {d n nZ : Nat}

/-- Weight of an association. -/
noncomputable def assocWeight (L : Fin n → Fin nZ → ℝ) (pd pe : Fin n → ℝ) (rows : List (Fin n)) (cols : List (Fin nZ)) (A : Fin rows.length → Option (Fin cols.length)) : ℝ :=
  ∏ r, match A r with
    | some c => max (L (rows.get r) (cols.get c)) (Real.exp (-1000))
    | none => 1 - pd (rows.get r) * pe (rows.get r)

/-- Probability that a track exists given an association: 1 if it was seen, otherwise by Bayes' rule. -/
noncomputable def existsGiven (pd pe : Fin n → ℝ) (rows : List (Fin n)) (cols : List (Fin nZ)) (A : Fin rows.length → Option (Fin cols.length)) (r : Fin rows.length) : ℝ :=
  match A r with
  | some _ => 1
  | none => pe (rows.get r) * (1 - pd (rows.get r)) / (1 - pd (rows.get r) * pe (rows.get r))

/-- `B` lists associations once, best first up to the tolerance `n 1e-12` of the assignment, and lists all that are better than `H`. -/
structure BestFirst (L : Fin n → Fin nZ → ℝ) (pd pe : Fin n → ℝ) (rows : List (Fin n)) (cols : List (Fin nZ)) (H : ℝ) (B : List (Fin rows.length → Option (Fin cols.length))) : Prop where
  nodup : B.Nodup
  valid : ∀ A ∈ B, OneToOne A
  order : B.Pairwise fun A A' => assocWeight L pd pe rows cols A' ≤ Real.exp ((rows.length + cols.length : ℕ) * (1 / 10 ^ 12)) * assocWeight L pd pe rows cols A
  complete : ∀ A, OneToOne A → H < assocWeight L pd pe rows cols A → A ∈ B

theorem results_val {k' : Nat} {α : Type*} (Q : Murty.PQ ℝ k') (prm : Murty.Prm ℝ k') (bot H' : ℝ) (val : α → ℝ) (ok : (Fin k' → Fin k') → α → Prop) : ∀ (k : Nat) (st : Murty.St ℝ k' Q) (B : List α),
    (∀ x ∈ B, bot ≤ val x) →
    (∀ i : Nat, match B[i]? with
      | some x => ∃ r a, Murty.call Q prm st i = .found r a (val x) ∧ ok a x
      | none => Murty.call Q prm st i = .noMore ∨ ∃ r a s, Murty.call Q prm st i = .found r a s ∧ s ≤ H') →
    ∃ R E, results Q prm bot k st = some (R ++ E) ∧ List.Forall₂ (fun A x => x.2 = val A ∧ ok x.1 A) (B.take k) R ∧ (∀ x ∈ E, x.2 ≤ H') ∧ E.length ≤ k
  | 0, st, B, _, _ => ⟨[], [], rfl, by simp, by simp, by simp⟩
  | k + 1, st, [], hb, hcall => by
    have h0 := hcall 0
    simp only [List.getElem?_nil] at h0
    unfold Murty.call at h0
    unfold results
    cases hf : Murty.findNextBest Q prm st with
    | mk r st' =>
      rw [hf] at h0
      rcases h0 with h0 | ⟨r', a, s, h0, hs⟩
      · simp only at h0
        subst h0
        exact ⟨[], [], rfl, by simp, by simp, by simp⟩
      · simp only at h0
        subst h0
        simp only
        split
        · exact ⟨[], [], rfl, by simp, by simp, by simp⟩
        · obtain ⟨R, E, h1, h2, h3, h4⟩ := results_val Q prm bot H' val ok k st' [] (by simp) (fun i => by
            have h1 := hcall (i + 1)
            simp only [List.getElem?_nil] at h1 ⊢
            rw [Murty.call, hf] at h1
            exact h1)
          rw [List.take_nil] at h2
          cases h2
          refine ⟨[], (a, s) :: E, by rw [h1]; rfl, by simp, ?_, by simpa using h4⟩
          intro x hx
          rcases List.mem_cons.1 hx with rfl | hx
          · exact hs
          · exact h3 x hx
  | k + 1, st, x :: B, hb, hcall => by
    have h0 := hcall 0
    simp only [List.getElem?_cons_zero] at h0
    unfold Murty.call at h0
    unfold results
    cases hf : Murty.findNextBest Q prm st with
    | mk r st' =>
      rw [hf] at h0
      obtain ⟨r', a, h0, hok⟩ := h0
      simp only at h0
      subst h0
      simp only
      rw [if_neg (not_lt.2 (hb x (by simp)))]
      obtain ⟨R, E, h1, h2, h3, h4⟩ := results_val Q prm bot H' val ok k st' B (fun σ hσ => hb σ (List.mem_cons_of_mem _ hσ)) (fun i => by
        have h1 := hcall (i + 1)
        simp only [List.getElem?_cons_succ] at h1 ⊢
        rw [Murty.call, hf] at h1
        exact h1)
      exact ⟨(a, val x) :: R, E, by rw [h1]; rfl, by rw [List.take_succ_cons]; exact List.Forall₂.cons ⟨rfl, hok⟩ h2, h3, by omega⟩

/-- One assignment adds its labels, for any list that is long enough. -/
theorem assign_list (pd pe : Fin n → ℝ) (hden : ∀ m, 1 - pd m * pe m ≠ 0) (rows : List (Fin n)) (cols : List (Fin nZ)) (hr : rows.Nodup)
    (t : Tab n nZ) (p : List Nat) (hl : rows.length ≤ p.length) (w : ℝ) :
    assign pd pe rows cols t p w = some ⟨t.lik + w,
      fun m k => t.mw m k + (if m ∈ rows then if toF rows cols (p.take rows.length) m = k then labOf pd pe w m k else 0 else 0),
      fun m => t.upd m + (if m ∈ rows then labOf pd pe w m (toF rows cols (p.take rows.length) m) else 0)⟩ := by
  have hz : rows.zip p = rows.zip (p.take rows.length) := by
    conv_lhs => rw [← List.take_append_drop rows.length p, ← List.append_nil rows, List.append_nil rows]
    rw [show rows.zip (p.take rows.length ++ p.drop rows.length) = (rows ++ []).zip (p.take rows.length ++ p.drop rows.length) by rw [List.append_nil],
      List.zip_append (by rw [List.length_take]; omega), List.zip_nil_left, List.append_nil]
  have hl' : (p.take rows.length).length = rows.length := by rw [List.length_take]; omega
  unfold assign
  rw [hz, foldl_row pd pe hden]
  simp only [Option.some.injEq, Tab.mk.injEq, true_and]
  constructor
  · funext m k
    rw [← pick rows cols hr _ hl' m (fun x => if x = k then labOf pd pe w m k else 0)]
    congr 3
    funext x
    by_cases h : x.1 = m <;> simp [h]
  · funext m
    rw [← pick rows cols hr _ hl' m (fun x => labOf pd pe w m x)]

theorem lab_read (pd pe : Fin n → ℝ) (rows : List (Fin n)) (cols : List (Fin nZ)) (hr : rows.Nodup) (a : Fin (rows.length + cols.length) → Fin (rows.length + cols.length)) (w : ℝ)
    (r : Fin rows.length) :
    labOf pd pe w (rows.get r) (toF rows cols ((List.ofFn fun i => (a i).val).take rows.length) (rows.get r)) = w * existsGiven pd pe rows cols (read a) r := by
  have h1 : toF rows cols ((List.ofFn fun i => (a i).val).take rows.length) (rows.get r) = cols[(a (Fin.castAdd cols.length r)).val]? := by
    rw [List.get_eq_getElem, toF_get rows cols hr _ r.val r.2 (by rw [List.length_take, List.length_ofFn]; omega)]
    rw [List.getElem_take, List.getElem_ofFn]
    rfl
  rw [h1]
  unfold existsGiven MurtyBlockProps.read
  by_cases h : (a (Fin.castAdd cols.length r)).val < cols.length
  · rw [List.getElem?_eq_getElem h, dif_pos h]
    simp [labOf]
  · rw [List.getElem?_eq_none (not_lt.1 h), dif_neg h]
    simp only [labOf]
    ring

theorem exists_range (pd pe : Fin n → ℝ) (hpd : ∀ m, 0 ≤ pd m ∧ pd m ≤ 1) (hpe : ∀ m, 0 ≤ pe m ∧ pe m ≤ 1) (hpp : ∀ m, 0 < 1 - pd m * pe m) (rows : List (Fin n)) (cols : List (Fin nZ))
    (A : Fin rows.length → Option (Fin cols.length)) (r : Fin rows.length) : 0 ≤ existsGiven pd pe rows cols A r ∧ existsGiven pd pe rows cols A r ≤ 1 := by
  unfold existsGiven
  cases A r with
  | some _ => exact ⟨zero_le_one, le_rfl⟩
  | none =>
    simp only
    have h0 := hpp (rows.get r)
    obtain ⟨a1, a2⟩ := hpd (rows.get r)
    obtain ⟨b1, b2⟩ := hpe (rows.get r)
    refine ⟨div_nonneg (mul_nonneg b1 (by linarith)) h0.le, ?_⟩
    rw [div_le_one h0]
    nlinarith

theorem exp_val (L : Fin n → Fin nZ → ℝ) (hL : ∀ m z, 0 ≤ L m z) (pd pe : Fin n → ℝ) (hpp : ∀ m, 0 < 1 - pd m * pe m) (rows : List (Fin n)) (cols : List (Fin nZ))
    (A : Fin rows.length → Option (Fin cols.length)) :
    Real.exp (value (fun i j => (logEntry (L (rows.get i) (cols.get j))).unbotD 0) (fun i => Real.log (1 - pd (rows.get i) * pe (rows.get i))) (fun _ => 0) A) =
      assocWeight L pd pe rows cols A := by
  rw [exp_value]
  have h1 : (∏ z, colW (fun _ => Real.exp (0 : ℝ)) A z) = 1 := by
    refine Finset.prod_eq_one fun z _ => ?_
    unfold colW
    split
    · rfl
    · exact Real.exp_zero
  rw [h1, mul_one]
  unfold assocWeight
  refine Finset.prod_congr rfl fun r _ => ?_
  unfold rowW
  cases A r with
  | some c => exact (exp_logEntry _ (hL _ _)).1
  | none => exact Real.exp_log (hpp _)

/-- The table of a partition that goes through Murty's algorithm. -/
theorem block_murty (Q : ∀ n, Murty.PQ ℝ n) (big : ℝ) (fuel : Nat) (L : Fin n → Fin nZ → ℝ) (pd pe : Fin n → ℝ) (lo hi : ℝ) (hL : ∀ m z, 0 ≤ L m z ∧ L m z ≤ Real.exp hi)
    (hpd : ∀ m, 0 ≤ pd m ∧ pd m ≤ 1) (hpe : ∀ m, 0 ≤ pe m ∧ pe m ≤ 1) (hpp : ∀ m, Real.exp lo ≤ 1 - pd m * pe m) (hlo : -1000 ≤ lo) (hl0 : lo ≤ 0) (h0h : 0 ≤ hi)
    (rows : List (Fin n)) (cols : List (Fin nZ)) (hr : rows.Nodup) (hr0 : rows ≠ []) (hc0 : cols ≠ [])
    (hbig : (rows.length + cols.length : ℕ) * (hi - lo) + (rows.length + cols.length : ℕ) * (1 / 10 ^ 12) < big - 2000)
    (hf : (rows.length + cols.length) * (rows.length + cols.length + 1) < fuel) (t0 : Tab n nZ) (H : ℝ)
    (hH : H = Real.exp (-1000 + (rows.length + cols.length : ℕ) * hi + 2 * (rows.length + cols.length : ℕ) * (1 / 10 ^ 12))) :
    ∃ t B e, (murtyOf Q big fuel L pd pe rows cols).foldlM (fun t x => assign pd pe rows cols t x.1 x.2) t0 = some t ∧ BestFirst L pd pe rows cols H B ∧
      0 ≤ e ∧ e ≤ 200 * H ∧ t.lik = t0.lik + ((B.take 200).map (assocWeight L pd pe rows cols)).sum + e ∧
      ∀ r, ∃ e', 0 ≤ e' ∧ e' ≤ e ∧
        t.upd (rows.get r) = t0.upd (rows.get r) + ((B.take 200).map fun A => assocWeight L pd pe rows cols A * existsGiven pd pe rows cols A r).sum + e' := by
  have hpp0 : ∀ m, 0 < 1 - pd m * pe m := fun m => lt_of_lt_of_le (Real.exp_pos _) (hpp m)
  have hN0 : (0 : ℝ) ≤ ((rows.length + cols.length : ℕ) : ℝ) := Nat.cast_nonneg _
  set Lg : Fin rows.length → Fin cols.length → ℝ := fun i j => (logEntry (L (rows.get i) (cols.get j))).unbotD 0 with hLg
  set miss : Fin rows.length → ℝ := fun i => Real.log (1 - pd (rows.get i) * pe (rows.get i)) with hmiss
  have hRg : Ranges Lg miss (fun _ => 0) (-1000) big lo hi := by
    refine ⟨List.length_pos_of_ne_nil hr0, List.length_pos_of_ne_nil hc0, fun r c => ?_, fun r => ?_, fun c => ⟨hl0, h0h⟩, hlo, hl0, h0h, by linarith⟩
    · obtain ⟨h1, h2⟩ := exp_logEntry (L (rows.get r) (cols.get c)) (hL _ _).1
      refine ⟨h2, ?_⟩
      rw [← Real.exp_le_exp, h1]
      refine max_le (hL _ _).2 ?_
      unfold eps
      exact Real.exp_le_exp.2 (by linarith)
    · refine ⟨(Real.le_log_iff_exp_le (hpp0 _)).2 (hpp _), ?_⟩
      refine (Real.log_nonpos (hpp0 _).le ?_).trans h0h
      have := mul_nonneg (hpd (rows.get r)).1 (hpe (rows.get r)).1
      linarith
  set ε : ℝ := ((rows.length + cols.length : ℕ) : ℝ) * (1 / 10 ^ 12) with hε
  have hε0 : 0 ≤ ε := by positivity
  set h' : ℝ := -1000 + ((rows.length + cols.length : ℕ) : ℝ) * hi + ε with hh'
  have hHe : H = Real.exp (h' + ε) := by rw [hH, hh', hε]; congr 1; ring
  obtain ⟨B, hnd, hB, hord, hall, hcall⟩ := C113_each_association_once (H := h') (Q (rows.length + cols.length)) hRg fuel hf le_rfl
  have hW : ∀ A, Real.exp (value Lg miss (fun _ => 0) A) = assocWeight L pd pe rows cols A := exp_val L (fun m z => (hL m z).1) pd pe hpp0 rows cols
  obtain ⟨R, E, hres, hR, hE, hEl⟩ := results_val (Q (rows.length + cols.length)) (Murty.Prm.make (MurtyLik.extMatrix Lg miss (fun _ => 0) (-1000)) big (some (rows.length, cols.length)) fuel)
    (-1000) (h' + ε) (value Lg miss (fun _ => 0)) (fun a A => read a = A) 200 (Murty.start _) B (by
      intro A hA
      refine le_trans ?_ (hB A hA).2.le
      rw [hh']
      have := mul_nonneg hN0 h0h
      linarith) (by
      intro i
      have h1 := hcall i
      cases hi : B[i]? with
      | some A =>
        rw [hi] at h1
        obtain ⟨a, h2, -, h3⟩ := h1
        exact ⟨_, a, h2, h3⟩
      | none =>
        rw [hi] at h1
        exact h1)
  have hm : murtyOf Q big fuel L pd pe rows cols = (R ++ E).map fun x => (List.ofFn fun i => (x.1 i).val, Real.exp x.2) := by
    unfold murtyOf blockResults
    rw [show results _ _ _ _ _ = some (R ++ E) from hres, Option.getD_some]
  have hfold := foldl_tab (fun t (x : List Nat × ℝ) => assign pd pe rows cols t x.1 x.2) (fun x => x.2)
    (fun x m k => if m ∈ rows then if toF rows cols (x.1.take rows.length) m = k then labOf pd pe x.2 m k else 0 else 0)
    (fun x m => if m ∈ rows then labOf pd pe x.2 m (toF rows cols (x.1.take rows.length) m) else 0) (murtyOf Q big fuel L pd pe rows cols) t0 (by
      intro t x hx
      rw [hm] at hx
      obtain ⟨y, -, rfl⟩ := List.mem_map.1 hx
      exact assign_list pd pe (fun m => (hpp0 m).ne') rows cols hr t _ (by rw [List.length_ofFn]; omega) _)
  have sumR : ∀ (l : List (Fin rows.length → Option (Fin cols.length))) (R : List ((Fin (rows.length + cols.length) → Fin (rows.length + cols.length)) × ℝ))
      (g : (Fin rows.length → Option (Fin cols.length)) → ℝ),
      List.Forall₂ (fun A x => x.2 = value Lg miss (fun _ => 0) A ∧ read x.1 = A) l R →
      (R.map fun x => Real.exp x.2 * g (read x.1)).sum = (l.map fun A => assocWeight L pd pe rows cols A * g A).sum := by
    intro l R g h
    induction h with
    | nil => rfl
    | cons h _ ih =>
      rw [List.map_cons, List.map_cons, List.sum_cons, List.sum_cons, ih, h.1, h.2, hW]
  have hEpos : ∀ x ∈ E, 0 ≤ Real.exp x.2 := fun x _ => (Real.exp_pos _).le
  refine ⟨_, B, (E.map fun x => Real.exp x.2).sum, hfold, ⟨hnd, fun A hA => (hB A hA).1, ?_, ?_⟩, ?_, ?_, ?_, ?_⟩
  · refine hord.imp fun {A A'} h => ?_
    rw [← hW, ← hW, ← Real.exp_add, Real.exp_le_exp]
    linarith
  · intro A hA hlt
    refine hall A hA ?_
    rw [← hW, hHe, Real.exp_lt_exp] at hlt
    exact hlt
  · exact List.sum_nonneg (by
      intro y hy
      obtain ⟨x, hx, rfl⟩ := List.mem_map.1 hy
      exact hEpos x hx)
  · have h1 := List.sum_le_card_nsmul (E.map fun x => Real.exp x.2) H (by
      intro y hy
      obtain ⟨x, hx, rfl⟩ := List.mem_map.1 hy
      rw [hHe]
      exact Real.exp_le_exp.2 (hE x hx))
    rw [List.length_map, nsmul_eq_mul] at h1
    have hH0 : 0 ≤ H := by rw [hHe]; exact (Real.exp_pos _).le
    have h2 : (E.length : ℝ) ≤ 200 := by exact_mod_cast hEl
    exact h1.trans (mul_le_mul_of_nonneg_right h2 hH0)
  · simp only [hm, List.map_map, List.map_append, List.sum_append, Function.comp_def]
    have := sumR _ R (fun _ => 1) hR
    simp only [mul_one] at this
    rw [this]
    ring
  · intro r
    have hmem : rows.get r ∈ rows := List.get_mem _ _
    refine ⟨(E.map fun x => Real.exp x.2 * existsGiven pd pe rows cols (read x.1) r).sum, ?_, ?_, ?_⟩
    · exact List.sum_nonneg (by
        intro y hy
        obtain ⟨x, hx, rfl⟩ := List.mem_map.1 hy
        exact mul_nonneg (hEpos x hx) (exists_range pd pe hpd hpe hpp0 rows cols _ r).1)
    · refine List.sum_le_sum fun x hx => ?_
      have := (exists_range pd pe hpd hpe hpp0 rows cols (read x.1) r).2
      have h0 := hEpos x hx
      nlinarith
    · simp only [hm, List.map_map, List.map_append, List.sum_append, Function.comp_def, if_pos hmem, lab_read pd pe rows cols hr]
      rw [sumR _ R (fun A => existsGiven pd pe rows cols A r) hR]
      ring

/-- C48 (partial), partitions of any size, with Murty's algorithm as in the code: for a partition of more than 8 tracks and measurements, the new existence probability of a track is the mean of its existence
probabilities given the associations, over the 200 associations of greatest weight, weighted by these. The error terms `e`, `e'` come from associations of weight at most `H`, the order is up to the tolerance of the assignment.
Missing: the other associations. -/
theorem C48_murty_partial (L : Fin n → Fin nZ → ℝ) (pd pe : Fin n → ℝ) (mix : Fin n → GMix ℝ d) (mm : Fin n → Fin nZ → GMix ℝ d) (Q : ∀ n, Murty.PQ ℝ n) (mfuel fuel ncc : Nat)
    (lab : Fin n ⊕ Fin nZ → Nat) (hcomp : IsComponents L 0 ncc lab) (lo hi : ℝ) (hL : ∀ m z, 0 ≤ L m z ∧ L m z ≤ Real.exp hi)
    (hpd : ∀ m, 0 ≤ pd m ∧ pd m ≤ 1) (hpe : ∀ m, 0 ≤ pe m ∧ pe m ≤ 1) (hpp : ∀ m, Real.exp lo ≤ 1 - pd m * pe m) (hlo : -1000 ≤ lo) (hl0 : lo ≤ 0) (h0h : 0 ≤ hi)
    (hbig : (n + nZ : ℕ) * (hi - lo) + (n + nZ : ℕ) * (1 / 10 ^ 12) < 8000) (hmf : (n + nZ) * (n + nZ + 1) < mfuel)
    (s : St d n nZ) (hs : update L pd pe mix mm (murtyOf Q 10000 mfuel L pd pe) fuel ncc lab = some s) (o : Obj n nZ) (ho : partition ncc lab none = some o)
    (p : Nat) (hp : p < o.nP) (hz : o.zero ≠ some p) (h8 : 8 < (o.I p).length + (o.J p).length) :
    ∃ B e, BestFirst L pd pe (o.I p) (o.J p) (Real.exp (-1000 + ((o.I p).length + (o.J p).length : ℕ) * hi + 2 * ((o.I p).length + (o.J p).length : ℕ) * (1 / 10 ^ 12))) B ∧
      0 ≤ e ∧ e ≤ 200 * Real.exp (-1000 + ((o.I p).length + (o.J p).length : ℕ) * hi + 2 * ((o.I p).length + (o.J p).length : ℕ) * (1 / 10 ^ 12)) ∧
      ∀ r, ∃ e', 0 ≤ e' ∧ e' ≤ e ∧ s.P ((o.I p).get r) =
        (((B.take 200).map fun A => assocWeight L pd pe (o.I p) (o.J p) A * existsGiven pd pe (o.I p) (o.J p) A r).sum + e') /
          (((B.take 200).map (assocWeight L pd pe (o.I p) (o.J p))).sum + e) := by
  set murty := murtyOf Q 10000 mfuel L pd pe with hmurty
  have hmpos : ∀ r c, ∀ x ∈ murty r c, 0 ≤ x.2 := by
    intro r c x hx
    rw [hmurty] at hx
    unfold murtyOf at hx
    obtain ⟨y, -, rfl⟩ := List.mem_map.1 hx
    exact (Real.exp_pos _).le
  obtain ⟨o', ho', hI, -, hnd, -, hne, -⟩ := blocks L ncc lab hcomp
  rw [ho] at ho'
  cases ho'
  unfold update at hs
  rw [ho, Option.bind_some] at hs
  have key : ∀ k ≤ o.nP, ∀ s, (List.range k).foldlM (partStep L pd pe murty fuel o) (⟨pe, mix, mm, fun _ _ => 0, fun _ => 0, 1⟩ : St d n nZ) = some s →
      (p < k → ∃ B e, BestFirst L pd pe (o.I p) (o.J p) (Real.exp (-1000 + ((o.I p).length + (o.J p).length : ℕ) * hi + 2 * ((o.I p).length + (o.J p).length : ℕ) * (1 / 10 ^ 12))) B ∧
      0 ≤ e ∧ e ≤ 200 * Real.exp (-1000 + ((o.I p).length + (o.J p).length : ℕ) * hi + 2 * ((o.I p).length + (o.J p).length : ℕ) * (1 / 10 ^ 12)) ∧
      ∀ r, ∃ e', 0 ≤ e' ∧ e' ≤ e ∧ s.P ((o.I p).get r) =
        (((B.take 200).map fun A => assocWeight L pd pe (o.I p) (o.J p) A * existsGiven pd pe (o.I p) (o.J p) A r).sum + e') /
          (((B.take 200).map (assocWeight L pd pe (o.I p) (o.J p))).sum + e)) ∧ ∀ q, k ≤ q → q < o.nP → ∀ m ∈ o.I q, s.upd m = 0 := by
    intro k
    induction k with
    | zero => intro _ s h; cases h; exact ⟨fun h => absurd h (by omega), fun _ _ _ _ _ => rfl⟩
    | succ k ih =>
      intro hk s' h
      rw [List.range_succ, List.foldlM_append] at h
      cases h1 : (List.range k).foldlM (partStep L pd pe murty fuel o) (⟨pe, mix, mm, fun _ _ => 0, fun _ => 0, 1⟩ : St d n nZ) with
      | none => rw [h1] at h; cases h
      | some s =>
        rw [h1] at h
        obtain ⟨hP, hU⟩ := ih (by omega) s h1
        have h2 : partStep L pd pe murty fuel o s k = some s' := by
          have : ([k].foldlM (partStep L pd pe murty fuel o) s) = some s' := h
          simpa using this
        have hdis : ∀ q < o.nP, q ≠ k → ∀ m ∈ o.I q, m ∉ o.I k := by
          intro q hq hqk m hm hm'
          obtain ⟨r, -, hu⟩ := hI m
          exact hqk ((hu q ⟨hq, hm⟩).trans (hu k ⟨by omega, hm'⟩).symm)
        unfold partStep at h2
        simp only at h2
        generalize hum : (if (getPartitionSize o k).2.1 + (getPartitionSize o k).2.2 ≤ 8 ∨ (getPartitionSize o k).1 = false then false else true) = um at h2
        split at h2
        · rename_i hflag
          obtain ⟨P', hP', rfl⟩ := Option.map_eq_some_iff.1 h2
          refine ⟨fun hpk => ?_, fun q hkq hq m hm => hU q (by omega) hq m hm⟩
          have hpk' : p ≠ k := by
            rintro rfl
            rcases hflag with hflag | hflag
            · simp [getPartition, hz] at hflag
            · exact (hne p hp hz).2.1 (List.length_eq_zero_iff.1 hflag)
          obtain ⟨B, e, b1, b2, b3, b4⟩ := hP (by omega)
          refine ⟨B, e, b1, b2, b3, fun r => ?_⟩
          obtain ⟨e', c1, c2, c3⟩ := b4 r
          refine ⟨e', c1, c2, ?_⟩
          rw [← c3]
          show P' _ = s.P _
          have hnot := hdis p hp hpk' _ (List.get_mem (o.I p) r)
          have : ∀ (l : List (Fin n)) (P P' : Fin n → ℝ), l.foldlM (missStep pd pe) P = some P' → ∀ m, m ∉ l → P' m = P m := by
            intro l
            induction l with
            | nil => intro P P' h m _; cases h; rfl
            | cons a l ih =>
              intro P P' h m hm
              rw [List.foldlM_cons] at h
              unfold missStep at h
              split at h
              · cases h
              · rw [ih _ _ h m (fun h' => hm (List.mem_cons_of_mem _ h')), Function.update_of_ne (fun h' => hm (by rw [h']; exact List.mem_cons_self))]
          exact this _ _ _ hP' _ hnot
        · rename_i hflag
          obtain ⟨t, ht, h3⟩ := Option.bind_eq_some_iff.1 h2
          obtain ⟨s1, hs1, rfl⟩ := Option.map_eq_some_iff.1 h3
          have hnd' := (hnd k (by omega)).1
          have hrowsnd : (getPartition L o k um).1.rows.Nodup := hnd'
          have hT : TabOk (o.I k) s.upd t := by
            have h0 : TabOk (o.I k) s.upd (⟨0, s.mw, s.upd⟩ : Tab n nZ) := fun m => ⟨le_refl _, le_refl _, by split <;> simp⟩
            split at ht
            · exact fold_range (o.I k) s.upd _ _ (fun t t' x hx ha hb => assign_range pd pe hpd hpe _ hrowsnd _ s.upd t t' _ _ (hmpos _ _ x hx) ha hb) _ _ h0 ht
            · exact lex_range (o.I k) s.upd _ (fun t t' o' ha hb => assign_range pd pe hpd hpe _ hrowsnd _ s.upd t t' _ _ (ex_nonneg _) ha hb) _ _ _ _ h0 ht
          obtain ⟨g1, g2⟩ := track_range _ t.lik _ _ _ hrowsnd hs1
          refine ⟨fun hpk => ?_, fun q hkq hq m hm => ?_⟩
          · by_cases hpk' : p = k
            · subst hpk'
              have hum' : um = true := by
                rw [← hum, if_neg]
                rintro (h | h)
                · exact absurd h (by simp only [getPartitionSize]; omega)
                · simp [getPartitionSize, hz] at h
              rw [hum', if_pos rfl] at ht
              have hnn : (o.I p).length + (o.J p).length ≤ n + nZ := by
                have a1 := (hnd p hp).1.length_le_card
                have a2 := (hnd p hp).2.length_le_card
                rw [Fintype.card_fin] at a1 a2
                omega
              have hn' : ((((o.I p).length + (o.J p).length : ℕ)) : ℝ) ≤ ((n + nZ : ℕ) : ℝ) := Nat.cast_le.2 hnn
              obtain ⟨t', B, e, b0, b1, b2, b3, b4, b5⟩ := block_murty Q 10000 mfuel L pd pe lo hi hL hpd hpe hpp hlo hl0 h0h (o.I p) (o.J p) hnd' (hne p hp hz).1 (hne p hp hz).2.1 (by
                have : ((((o.I p).length + (o.J p).length : ℕ)) : ℝ) * (hi - lo + 1 / 10 ^ 12) ≤ ((n + nZ : ℕ) : ℝ) * (hi - lo + 1 / 10 ^ 12) :=
                  mul_le_mul_of_nonneg_right hn' (by have : (0 : ℝ) ≤ 1 / 10 ^ 12 := by norm_num
                                                     linarith)
                linarith) (lt_of_le_of_lt (Nat.mul_le_mul hnn (by omega)) hmf) ⟨0, s.mw, s.upd⟩ _ rfl
              have htt : t = t' := by
                have : some t = some t' := ht.symm.trans b0
                exact Option.some.inj this
              subst htt
              refine ⟨B, e, b1, b2, b3, fun r => ?_⟩
              obtain ⟨e', c1, c2, c3⟩ := b5 r
              refine ⟨e', c1, c2, ?_⟩
              show s1.P _ = _
              rw [(g2 _ (List.get_mem (o.I p) r)).1]
              show t.upd _ / t.lik = _
              rw [c3, b4]
              show (s.upd _ + _ + _) / _ = _
              rw [hU p le_rfl hp _ (List.get_mem (o.I p) r), zero_add, zero_add]
            · obtain ⟨B, e, b1, b2, b3, b4⟩ := hP (by omega)
              refine ⟨B, e, b1, b2, b3, fun r => ?_⟩
              obtain ⟨e', c1, c2, c3⟩ := b4 r
              refine ⟨e', c1, c2, ?_⟩
              rw [← c3]
              exact (g1 _ (hdis p hp hpk' _ (List.get_mem (o.I p) r))).1
          · have hnot := hdis q hq (by omega) m hm
            refine (g1 m hnot).2.trans ?_
            show t.upd m = 0
            obtain ⟨a, b, c⟩ := hT m
            rw [if_neg hnot, hU q (by omega) hq m hm] at c
            rw [hU q (by omega) hq m hm] at b
            linarith
  exact (key o.nP le_rfl s hs).1 hp

/-- C93 (partial), partitions of any size, with Murty's algorithm as in the code: the factor of the particle's weight is a product over the partitions, as is the total weight of all hypotheses. The factors agree except for
partitions of more than 8 tracks and measurements, where the factor is the sum of the weights of the 200 best associations, up to `e`. Missing: the other associations. -/
theorem C93_murty_partial (L : Fin n → Fin nZ → ℝ) (pd pe : Fin n → ℝ) (mix : Fin n → GMix ℝ d) (mm : Fin n → Fin nZ → GMix ℝ d) (Q : ∀ n, Murty.PQ ℝ n) (mfuel fuel ncc : Nat)
    (lab : Fin n ⊕ Fin nZ → Nat) (hcomp : IsComponents L 0 ncc lab) (lo hi : ℝ) (hL : ∀ m z, 0 ≤ L m z ∧ L m z ≤ Real.exp hi)
    (hpd : ∀ m, 0 ≤ pd m ∧ pd m ≤ 1) (hpe : ∀ m, 0 ≤ pe m ∧ pe m ≤ 1) (hpp : ∀ m, Real.exp lo ≤ 1 - pd m * pe m) (hlo : -1000 ≤ lo) (hl0 : lo ≤ 0) (h0h : 0 ≤ hi)
    (hbig : (n + nZ : ℕ) * (hi - lo) + (n + nZ : ℕ) * (1 / 10 ^ 12) < 8000) (hmf : (n + nZ) * (n + nZ + 1) < mfuel) (hf : 2 ^ 32 ≤ fuel)
    (s : St d n nZ) (hs : update L pd pe mix mm (murtyOf Q 10000 mfuel L pd pe) fuel ncc lab = some s) :
    ∃ (o : Obj n nZ) (v : Nat → ℝ), partition ncc lab none = some o ∧ s.l = ∏ p ∈ Finset.range o.nP, v p ∧
      mass (floored L) pd pe (fun _ => True) = ∏ p ∈ Finset.range o.nP, S (floored L) (miss0 pd pe) (fun _ => 1) (o.I p).toFinset (o.J p).toFinset ∧
      ∀ p < o.nP, v p = S (floored L) (miss0 pd pe) (fun _ => 1) (o.I p).toFinset (o.J p).toFinset ∨
        (8 < (o.I p).length + (o.J p).length ∧
          S (floored L) (miss0 pd pe) (fun _ => 1) (o.I p).toFinset (o.J p).toFinset =
            (open Classical in ∑ A ∈ (Finset.univ : Finset (Fin (o.I p).length → Option (Fin (o.J p).length))).filter OneToOne, assocWeight L pd pe (o.I p) (o.J p) A) ∧
          ∃ B e, BestFirst L pd pe (o.I p) (o.J p) (Real.exp (-1000 + ((o.I p).length + (o.J p).length : ℕ) * hi + 2 * ((o.I p).length + (o.J p).length : ℕ) * (1 / 10 ^ 12))) B ∧
            0 ≤ e ∧ e ≤ 200 * Real.exp (-1000 + ((o.I p).length + (o.J p).length : ℕ) * hi + 2 * ((o.I p).length + (o.J p).length : ℕ) * (1 / 10 ^ 12)) ∧
            v p = ((B.take 200).map (assocWeight L pd pe (o.I p) (o.J p))).sum + e) := by
  classical
  have hpp0 : ∀ m, 0 < 1 - pd m * pe m := fun m => lt_of_lt_of_le (Real.exp_pos _) (hpp m)
  obtain ⟨o, ho, hI, hJ, hnd, hzero, hne, hsame, -, -⟩ := blocks L ncc lab hcomp
  have hF0 : ∀ m z, 0 ≤ floored L m z := by
    intro m z
    unfold floored
    split
    · exact le_max_of_le_left (hL m z).1
    · exact le_refl _
  have hcross : ∀ p < o.nP, ∀ m ∈ o.I p, ∀ z, z ∉ o.J p → floored L m z = 0 := by
    intro p hp m hm z hz
    unfold floored
    rw [if_neg]
    exact fun h => hz (hsame m z h p hp hm)
  have hS : ∀ p < o.nP, S (floored L) (miss0 pd pe) (fun _ => 1) (o.I p).toFinset (o.J p).toFinset ≠ 0 := by
    intro p _
    refine (S_pos _ _ _ _ _ hF0 (fun m => (hpp0 m).le) (fun _ => one_pos) (fun _ => none) (mem_Match.2 ⟨fun _ _ => rfl, fun _ _ h => by simp at h, fun _ _ _ h => by simp at h⟩) ?_).ne'
    intro m _; exact hpp0 m
  have htot : mass (floored L) pd pe (fun _ => True) = ∏ q ∈ Finset.range o.nP, S (floored L) (miss0 pd pe) (fun _ => 1) (o.I q).toFinset (o.J q).toFinset := by
    rw [mass_true]
    by_cases h0 : o.nP = 0
    · have hn : IsEmpty (Fin n) := ⟨fun i => by obtain ⟨p, ⟨hp, -⟩, -⟩ := hI i; omega⟩
      have hz : IsEmpty (Fin nZ) := ⟨fun i => by obtain ⟨p, ⟨hp, -⟩, -⟩ := hJ i; omega⟩
      rw [h0, Finset.range_zero, Finset.prod_empty, ← S_univ, Finset.univ_eq_empty, Finset.univ_eq_empty, S_empty]
    · exact (ratio o hI hJ (floored L) (floored L) (miss0 pd pe) (miss0 pd pe) (fun _ => 1) (fun _ => 1) hcross hcross hS 0 (by omega)
        (fun _ _ => ⟨rfl, rfl⟩) (fun _ _ => rfl)).2
  have hfl : ∀ p < o.nP, o.zero ≠ some p → ∀ m ∈ o.I p, ∀ z ∈ o.J p, floored L m z = max (L m z) eps := by
    intro p hp hz m hm z hz'
    unfold floored
    rw [if_pos ((hne p hp hz).2.2 m hm z hz')]
    rfl
  have hSA : ∀ p < o.nP, o.zero ≠ some p → S (floored L) (miss0 pd pe) (fun _ => 1) (o.I p).toFinset (o.J p).toFinset =
      ∑ A ∈ (Finset.univ : Finset (Fin (o.I p).length → Option (Fin (o.J p).length))).filter OneToOne, assocWeight L pd pe (o.I p) (o.J p) A := by
    intro p hp hz
    rw [S_congr (floored L) (fun m z => max (L m z) eps) (miss0 pd pe) (miss0 pd pe) (fun _ => 1) (fun _ => 1) _ _
      (fun m hm z hz' => hfl p hp hz m (List.mem_toFinset.1 hm) z (List.mem_toFinset.1 hz')) (fun _ _ => rfl) (fun _ _ => rfl), S_block (hnd p hp).1 (hnd p hp).2]
    unfold Assoc.total
    refine Finset.sum_congr (by congr) fun A _ => ?_
    refine (mul_right_eq_self₀.2 (Or.inl (Finset.prod_eq_one fun z _ => ?_))).trans ?_
    · split <;> rfl
    unfold assocWeight
    refine Finset.prod_congr rfl fun r _ => ?_
    cases A r <;> rfl
  set murty := murtyOf Q 10000 mfuel L pd pe with hmurty
  -- one pass
  have hstep : ∀ p < o.nP, ∀ s s', partStep (d := d) L pd pe murty fuel o s p = some s' → ∃ v, s'.l = s.l * v ∧
      (v = S (floored L) (miss0 pd pe) (fun _ => 1) (o.I p).toFinset (o.J p).toFinset ∨
        (8 < (o.I p).length + (o.J p).length ∧ o.zero ≠ some p ∧
          ∃ B e, BestFirst L pd pe (o.I p) (o.J p) (Real.exp (-1000 + ((o.I p).length + (o.J p).length : ℕ) * hi + 2 * ((o.I p).length + (o.J p).length : ℕ) * (1 / 10 ^ 12))) B ∧
            0 ≤ e ∧ e ≤ 200 * Real.exp (-1000 + ((o.I p).length + (o.J p).length : ℕ) * hi + 2 * ((o.I p).length + (o.J p).length : ℕ) * (1 / 10 ^ 12)) ∧
            v = ((B.take 200).map (assocWeight L pd pe (o.I p) (o.J p))).sum + e)) := by
    intro p hp s s' h
    unfold partStep at h
    simp only at h
    generalize hum : (if (getPartitionSize o p).2.1 + (getPartitionSize o p).2.2 ≤ 8 ∨ (getPartitionSize o p).1 = false then false else true) = um at h
    split at h
    · rename_i hflag
      obtain ⟨P', -, rfl⟩ := Option.map_eq_some_iff.1 h
      refine ⟨_, rfl, Or.inl ?_⟩
      have hz : o.zero = some p := by
        by_contra hz
        rcases hflag with hflag | hflag
        · simp [getPartition, hz] at hflag
        · exact (hne p hp hz).2.1 (List.length_eq_zero_iff.1 hflag)
      rw [S_zero, Finset.prod_eq_one (s := (o.J p).toFinset) (fun _ _ => rfl), mul_one, List.prod_toFinset _ (hnd p hp).1]
      · rfl
      · intro m hm z _
        unfold floored
        rw [if_neg]
        intro h
        exact not_empty_of_linked L m z h (((hzero p hp hz).1 m).1 (List.mem_toFinset.1 hm))
    · rename_i hflag
      have hz : o.zero ≠ some p := by
        intro hz
        exact hflag (Or.inl (by simp [getPartition, hz]))
      obtain ⟨t, ht, h3⟩ := Option.bind_eq_some_iff.1 h
      obtain ⟨s1, hs1, rfl⟩ := Option.map_eq_some_iff.1 h3
      have hl : s1.l = s.l := by
        have : ∀ (rows : List (Fin n)) (s s' : St d n nZ), rows.foldlM (trackStep (getPartition L o p um).1.cols t.lik) s = some s' → s'.l = s.l := by
          intro rows
          induction rows with
          | nil => intro s s' h; cases h; rfl
          | cons r rows ih =>
            intro s s' h
            rw [List.foldlM_cons] at h
            cases h1 : trackStep (getPartition L o p um).1.cols t.lik s r with
            | none => rw [h1] at h; cases h
            | some s1 =>
              rw [h1] at h
              rw [ih s1 s' h]
              unfold trackStep at h1
              split at h1
              · cases h1
              · obtain ⟨m2, -, rfl⟩ := Option.map_eq_some_iff.1 h1
                rfl
        exact this _ ⟨s.P, s.mix, s.mm, t.mw, t.upd, s.l⟩ s1 hs1
      refine ⟨t.lik, by show s1.l * t.lik = _; rw [hl], ?_⟩
      by_cases h8 : (o.I p).length + (o.J p).length ≤ 8
      · left
        have hum' : um = false := by
          rw [← hum]
          exact if_pos (Or.inl h8)
        rw [hum', if_neg (by simp)] at ht
        have hpos : 0 < (o.I p).length + (o.J p).length := by have := List.length_pos_of_ne_nil (hne p hp hz).1; omega
        have := block_tab L pd pe (fun m z => (hL m z).1) (fun m => by linarith [hpp0 m]) (o.I p) (o.J p) (hnd p hp).1 (hnd p hp).2 h8 hpos fuel hf ⟨0, s.mw, s.upd⟩ _ rfl
        have ht' := Option.some.inj (ht.symm.trans this)
        rw [ht']
        show (0 : ℝ) + _ = _
        rw [zero_add, ← S_one]
        exact (S_congr _ _ _ _ _ _ _ _ (fun m hm z hz' => hfl p hp hz m (List.mem_toFinset.1 hm) z (List.mem_toFinset.1 hz')) (fun _ _ => rfl) (fun _ _ => rfl)).symm
      · right
        have hum' : um = true := by
          rw [← hum, if_neg]
          rintro (h | h)
          · exact h8 h
          · simp [getPartitionSize, hz] at h
        rw [hum', if_pos rfl] at ht
        have hnn : (o.I p).length + (o.J p).length ≤ n + nZ := by
          have a1 := (hnd p hp).1.length_le_card
          have a2 := (hnd p hp).2.length_le_card
          rw [Fintype.card_fin] at a1 a2
          omega
        have hn' : ((((o.I p).length + (o.J p).length : ℕ)) : ℝ) ≤ ((n + nZ : ℕ) : ℝ) := Nat.cast_le.2 hnn
        obtain ⟨t', B, e, b0, b1, b2, b3, b4, -⟩ := block_murty Q 10000 mfuel L pd pe lo hi hL hpd hpe hpp hlo hl0 h0h (o.I p) (o.J p) (hnd p hp).1 (hne p hp hz).1 (hne p hp hz).2.1 (by
          have : ((((o.I p).length + (o.J p).length : ℕ)) : ℝ) * (hi - lo + 1 / 10 ^ 12) ≤ ((n + nZ : ℕ) : ℝ) * (hi - lo + 1 / 10 ^ 12) :=
            mul_le_mul_of_nonneg_right hn' (by have : (0 : ℝ) ≤ 1 / 10 ^ 12 := by norm_num
                                               linarith)
          linarith) (lt_of_le_of_lt (Nat.mul_le_mul hnn (by omega)) hmf) ⟨0, s.mw, s.upd⟩ _ rfl
        have htt : t = t' := by
          have : some t = some t' := ht.symm.trans b0
          exact Option.some.inj this
        subst htt
        exact ⟨by omega, hz, B, e, b1, b2, b3, by rw [b4]; show (0 : ℝ) + _ + _ = _; rw [zero_add]⟩
  unfold update at hs
  rw [ho, Option.bind_some] at hs
  have key : ∀ k ≤ o.nP, ∀ s, (List.range k).foldlM (partStep L pd pe murty fuel o) (⟨pe, mix, mm, fun _ _ => 0, fun _ => 0, 1⟩ : St d n nZ) = some s →
      ∃ v : Nat → ℝ, s.l = ∏ p ∈ Finset.range k, v p ∧ ∀ p < k, (v p = S (floored L) (miss0 pd pe) (fun _ => 1) (o.I p).toFinset (o.J p).toFinset ∨
        (8 < (o.I p).length + (o.J p).length ∧ o.zero ≠ some p ∧
          ∃ B e, BestFirst L pd pe (o.I p) (o.J p) (Real.exp (-1000 + ((o.I p).length + (o.J p).length : ℕ) * hi + 2 * ((o.I p).length + (o.J p).length : ℕ) * (1 / 10 ^ 12))) B ∧
            0 ≤ e ∧ e ≤ 200 * Real.exp (-1000 + ((o.I p).length + (o.J p).length : ℕ) * hi + 2 * ((o.I p).length + (o.J p).length : ℕ) * (1 / 10 ^ 12)) ∧
            v p = ((B.take 200).map (assocWeight L pd pe (o.I p) (o.J p))).sum + e)) := by
    intro k
    induction k with
    | zero => intro _ s h; cases h; exact ⟨fun _ => 1, by simp, fun p hp => by omega⟩
    | succ k ih =>
      intro hk s' h
      rw [List.range_succ, List.foldlM_append] at h
      cases h1 : (List.range k).foldlM (partStep L pd pe murty fuel o) (⟨pe, mix, mm, fun _ _ => 0, fun _ => 0, 1⟩ : St d n nZ) with
      | none => rw [h1] at h; cases h
      | some s =>
        rw [h1] at h
        obtain ⟨v, hv1, hv2⟩ := ih (by omega) s h1
        have h2 : partStep L pd pe murty fuel o s k = some s' := by
          have : ([k].foldlM (partStep L pd pe murty fuel o) s) = some s' := h
          simpa using this
        obtain ⟨w, hw1, hw2⟩ := hstep k (by omega) s s' h2
        refine ⟨Function.update v k w, ?_, fun p hp => ?_⟩
        · rw [hw1, hv1, Finset.prod_range_succ, Function.update_self]
          congr 1
          refine Finset.prod_congr rfl fun p hp => ?_
          rw [Function.update_of_ne (Finset.mem_range.1 hp).ne]
        · by_cases hpk : p = k
          · subst hpk
            rw [Function.update_self]
            exact hw2
          · rw [Function.update_of_ne hpk]
            exact hv2 p (by omega)
  obtain ⟨v, hv1, hv2⟩ := key o.nP le_rfl s hs
  refine ⟨o, v, ho, hv1, htot, fun p hp => ?_⟩
  rcases hv2 p hp with h | ⟨h1, h2, h3⟩
  · exact Or.inl h
  · exact Or.inr ⟨h1, hSA p hp h2, h3⟩

/-- The numerical hypotheses can be met: 10 tracks, 10 measurements, probabilities 1/2. -/
example : (∀ (_ : Fin 10), Real.exp (-1) ≤ 1 - (1 / 2 : ℝ) * (1 / 2)) ∧ (((10 + 10 : ℕ) : ℝ) * (1 - (-1)) + ((10 + 10 : ℕ) : ℝ) * (1 / 10 ^ 12) < 8000) := by
  have h1 : (2 : ℝ) ≤ Real.exp 1 := by have := Real.add_one_le_exp (1 : ℝ); linarith
  have h2 : Real.exp (-1) ≤ 1 / 2 := by
    rw [Real.exp_neg, one_div]
    exact inv_anti₀ two_pos h1
  exact ⟨fun _ => by linarith, by norm_num⟩

end LMBProps
end RFS
