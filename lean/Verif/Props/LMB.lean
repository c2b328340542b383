import Verif.Lemmas.LMBOutcome
import Verif.Lemmas.LMBRange
import Verif.Lemmas.LMBMap

/-!
Properties C48, C49, C90-C93: the labelled multi-Bernoulli filter. Hypotheses, their weights and posterior probabilities are specified in
`Verif.Lemmas.Hypotheses` and `Verif.Lemmas.LMBEvents` (`weight`, `mass`, `post`).
-/

namespace RFS
namespace LMBProps
open GM GMB CBM Partition RFSLik Assoc PartitionProps RFSLikProps LMB

variable {d n nZ : Nat}

/-! ### C48: existence probabilities -/

/-- C48 (partial): when no partition needs Murty's algorithm, the new existence probability of every track in view is its posterior probability of existence
(the weight of the hypotheses in which it exists over the weight of all), for the likelihood table with the entries between linked tracks and measurements
raised to `e^-1000`. Missing: large partitions, where only some hypotheses are summed; there `C48_range` holds. -/
theorem C48_existence_partial (L : Fin n → Fin nZ → ℝ) (pd pe : Fin n → ℝ) (mix : Fin n → GMix ℝ d) (mm : Fin n → Fin nZ → GMix ℝ d) (hok : Ok L pd pe mix mm)
    (murty : List (Fin n) → List (Fin nZ) → List (List Nat × ℝ)) (fuel ncc : Nat) (lab : Fin n ⊕ Fin nZ → Nat) (hcomp : IsComponents L 0 ncc lab)
    (hsmall : Small L) (hf : 2 ^ 32 ≤ fuel) : ∃ s, update L pd pe mix mm murty fuel ncc lab = some s ∧
      ∀ m, s.P m = post (floored L) pd pe fun h => h m ≠ none := by
  obtain ⟨s, h1, -, -, h2, -⟩ := outcome L pd pe mix mm hok murty fuel ncc lab hcomp hsmall hf
  exact ⟨s, h1, h2⟩

theorem floored_dense (L : Fin n → Fin nZ → ℝ) (hL : ∀ m z, 0 ≤ L m z) (hdense : ∀ m z, Linked L 0 (.inl m) (.inr z) → Real.exp (-1000) ≤ L m z) :
    floored L = L := by
  classical
  funext m z
  unfold floored
  split
  · rename_i h; exact max_eq_left (hdense m z h)
  · rename_i h
    refine le_antisymm (hL m z) ?_
    by_contra hn
    exact h (.col m z _ (not_le.1 hn) (.refl _))

/-- C48 (partial): exactly the posterior probability of existence for the likelihood table itself, when moreover every entry between linked tracks and
measurements is at least `e^-1000`. -/
theorem C48_exact_partial (L : Fin n → Fin nZ → ℝ) (pd pe : Fin n → ℝ) (mix : Fin n → GMix ℝ d) (mm : Fin n → Fin nZ → GMix ℝ d) (hok : Ok L pd pe mix mm)
    (murty : List (Fin n) → List (Fin nZ) → List (List Nat × ℝ)) (fuel ncc : Nat) (lab : Fin n ⊕ Fin nZ → Nat) (hcomp : IsComponents L 0 ncc lab)
    (hsmall : Small L) (hf : 2 ^ 32 ≤ fuel) (hdense : ∀ m z, Linked L 0 (.inl m) (.inr z) → Real.exp (-1000) ≤ L m z) :
    ∃ s, update L pd pe mix mm murty fuel ncc lab = some s ∧ ∀ m, s.P m = post L pd pe fun h => h m ≠ none := by
  obtain ⟨s, h1, h2⟩ := C48_existence_partial L pd pe mix mm hok murty fuel ncc lab hcomp hsmall hf
  rw [floored_dense L hok.L0 hdense] at h2
  exact ⟨s, h1, h2⟩

/-- C48 (second half, with any outcome of Murty's algorithm): whenever the update gives numbers at all, every existence probability of a track in view is
between 0 and 1. -/
theorem C48_range (L : Fin n → Fin nZ → ℝ) (pd pe : Fin n → ℝ) (mix : Fin n → GMix ℝ d) (mm : Fin n → Fin nZ → GMix ℝ d)
    (hpd : ∀ m, 0 ≤ pd m ∧ pd m ≤ 1) (hpe : ∀ m, 0 ≤ pe m ∧ pe m ≤ 1)
    (murty : List (Fin n) → List (Fin nZ) → List (List Nat × ℝ)) (hmurty : ∀ r c, ∀ x ∈ murty r c, 0 ≤ x.2) (fuel ncc : Nat)
    (lab : Fin n ⊕ Fin nZ → Nat) (hcomp : IsComponents L 0 ncc lab) (s : St d n nZ) (hs : update L pd pe mix mm murty fuel ncc lab = some s) :
    ∀ m, 0 ≤ s.P m ∧ s.P m ≤ 1 := by
  obtain ⟨o, ho, hI, -, hnd, -⟩ := blocks L ncc lab hcomp
  unfold update at hs
  rw [ho, Option.bind_some] at hs
  have key : ∀ k ≤ o.nP, ∀ s, (List.range k).foldlM (partStep L pd pe murty fuel o) (⟨pe, mix, mm, fun _ _ => 0, fun _ => 0, 1⟩ : St d n nZ) = some s →
      (∀ m, 0 ≤ s.P m ∧ s.P m ≤ 1) ∧ ∀ p, k ≤ p → p < o.nP → ∀ m ∈ o.I p, s.upd m = 0 := by
    intro k
    induction k with
    | zero => intro _ s h; cases h; exact ⟨hpe, fun _ _ _ _ _ => rfl⟩
    | succ k ih =>
      intro hk s' h
      rw [List.range_succ, List.foldlM_append] at h
      cases h1 : (List.range k).foldlM (partStep L pd pe murty fuel o) (⟨pe, mix, mm, fun _ _ => 0, fun _ => 0, 1⟩ : St d n nZ) with
      | none => rw [h1] at h; cases h
      | some s =>
        rw [h1] at h
        obtain ⟨hP, hU⟩ := ih (by omega) s h1
        have h2 : partStep L pd pe murty fuel o s k = some s' := by
          have : ([k].foldlM (partStep L pd pe murty fuel o) s) = some s' := h
          simpa using this
        have hdis : ∀ p < o.nP, p ≠ k → ∀ m ∈ o.I p, m ∉ o.I k := by
          intro p hp hpk m hm hm'
          obtain ⟨r, -, hu⟩ := hI m
          exact hpk ((hu p ⟨hp, hm⟩).trans (hu k ⟨by omega, hm'⟩).symm)
        unfold partStep at h2
        simp only at h2
        generalize hum : (if (getPartitionSize o k).2.1 + (getPartitionSize o k).2.2 ≤ 8 ∨ (getPartitionSize o k).1 = false then false else true) = um at h2
        split at h2
        · obtain ⟨P', hP', rfl⟩ := Option.map_eq_some_iff.1 h2
          exact ⟨miss_range pd pe hpd hpe _ _ _ hP hP', fun p hkp hp m hm => hU p (by omega) hp m hm⟩
        · obtain ⟨t, ht, h3⟩ := Option.bind_eq_some_iff.1 h2
          obtain ⟨s1, hs1, rfl⟩ := Option.map_eq_some_iff.1 h3
          have hnd' := (hnd k (by omega)).1
          have hrowsnd : (getPartition L o k um).1.rows.Nodup := hnd'
          have hT : TabOk (o.I k) s.upd t := by
            have h0 : TabOk (o.I k) s.upd (⟨0, s.mw, s.upd⟩ : Tab n nZ) := fun m => ⟨le_refl _, le_refl _, by split <;> simp⟩
            split at ht
            · exact fold_range (o.I k) s.upd _ _ (fun t t' x hx ha hb => assign_range pd pe hpd hpe _ hrowsnd _ s.upd t t' _ _ (hmurty _ _ x hx) ha hb) _ _ h0 ht
            · exact lex_range (o.I k) s.upd _ (fun t t' o' ha hb => assign_range pd pe hpd hpe _ hrowsnd _ s.upd t t' _ _ (ex_nonneg _) ha hb) _ _ _ _ h0 ht
          obtain ⟨g1, g2⟩ := track_range _ t.lik _ _ _ hrowsnd hs1
          refine ⟨fun m => ?_, fun p hkp hp m hm => ?_⟩
          · show 0 ≤ s1.P m ∧ s1.P m ≤ 1
            by_cases hm : m ∈ o.I k
            · obtain ⟨e1, e2⟩ := g2 m hm
              obtain ⟨a, b, c⟩ := hT m
              rw [if_pos hm, hU k le_rfl (by omega) m hm] at c
              rw [hU k le_rfl (by omega) m hm] at b
              have hpos : 0 < t.lik := lt_of_le_of_ne a (Ne.symm e2)
              rw [e1]
              exact ⟨div_nonneg b hpos.le, by rw [div_le_one hpos]; simpa using c⟩
            · rw [(g1 m hm).1]; exact hP m
          · have hnot := hdis p hp (by omega) m hm
            refine (g1 m hnot).2.trans ?_
            -- rows outside the block receive nothing
            show t.upd m = 0
            obtain ⟨a, b, c⟩ := hT m
            rw [if_neg hnot, hU p (by omega) hp m hm] at c
            rw [hU p (by omega) hp m hm] at b
            linarith
  exact (key o.nP le_rfl s hs).1

/-- With detection and existence both certain, a track without any measurement in reach makes the code divide zero by zero. -/
theorem C48_certain_nan : ∀ (mix : Fin 1 → GMix ℝ d) (mm : Fin 1 → Fin 1 → GMix ℝ d) murty fuel ncc lab,
    IsComponents (fun (_ : Fin 1) (_ : Fin 1) => (0 : ℝ)) 0 ncc lab → update (fun _ _ => 0) (fun _ => 1) (fun _ => 1) mix mm murty fuel ncc lab = none := by
  intro mix mm murty fuel ncc lab hcomp
  obtain ⟨o, ho, hI, -, hnd, hzero, hlink, -⟩ := blocks _ ncc lab hcomp
  obtain ⟨p, ⟨hp, hm⟩, hu⟩ := hI 0
  have hz : ∀ q < o.nP, o.zero = some q := by
    intro q hq
    by_contra h
    obtain ⟨hr0, hc0, hrc⟩ := hlink q hq h
    obtain ⟨i, hi⟩ := List.exists_mem_of_ne_nil _ hr0
    obtain ⟨j, hj⟩ := List.exists_mem_of_ne_nil _ hc0
    exact not_empty_of_linked _ i j (hrc i hi j hj) (fun _ => le_refl _)
  have hp0 : p = 0 ∧ o.nP = 1 := by
    have h0 := hz p hp
    have h1 := hz 0 (by omega)
    have h2 := hz (o.nP - 1) (by omega)
    rw [h0] at h1 h2
    simp only [Option.some.injEq] at h1 h2
    omega
  obtain ⟨rfl, hnP⟩ := hp0
  unfold update
  rw [ho, Option.bind_some, hnP]
  show ([0].foldlM _ _ : Option _) = none
  have hrows : o.I 0 = [0] := by
    obtain ⟨hn, -⟩ := hnd 0 hp
    rcases h : o.I 0 with _ | ⟨a, l⟩
    · rw [h] at hm; simp at hm
    · have ha : a = 0 := Subsingleton.elim _ _
      subst ha
      rcases l with _ | ⟨b, l⟩
      · rfl
      · rw [h] at hn
        simp [Subsingleton.elim b 0] at hn
  simp only [List.foldlM_cons, List.foldlM_nil]
  have : ∀ s : St d 1 1, partStep (fun _ _ => 0) (fun _ => 1) (fun _ => 1) murty fuel o s 0 = none := by
    intro s
    unfold partStep
    have hflag : ∀ e, (getPartition (fun (_ : Fin 1) (_ : Fin 1) => (0 : ℝ)) o 0 e).1.flag = false := fun e => by simp [getPartition, hz 0 hp]
    simp only [hflag, true_or, if_true]
    show Option.map _ ((o.I 0).foldlM (missStep _ _) s.P) = none
    rw [hrows]
    simp [missStep]
  rw [this]
  rfl

/-! ### C49: birth probabilities -/

/-- Full statement: a measurement's birth probability is the complement of its posterior association probability, limited by `birthTrackMaxPE_`; measurements
for which it does not exceed `birthTrackMinPE_` give no birth. -/
def C49_full (cfg : Cfg) (L : Fin n → Fin nZ → ℝ) (pd pe : Fin n → ℝ) (s : St d n nZ) : Prop :=
  births cfg s = (List.finRange nZ).filterMap fun z =>
    let p := min cfg.maxPE (1 - post L pd pe fun h => ∃ m, h m = some (some z))
    if cfg.minPE < p then some (z, p) else none

/-- C49 (partial): what the code computes. The posterior association probability is multiplied with the likelihood of the measurement's partition, because
`mixtureWeight` is not divided by `partition_likelihood`. -/
theorem C49_value_partial (cfg : Cfg) (L : Fin n → Fin nZ → ℝ) (pd pe : Fin n → ℝ) (mix : Fin n → GMix ℝ d) (mm : Fin n → Fin nZ → GMix ℝ d) (hok : Ok L pd pe mix mm)
    (murty : List (Fin n) → List (Fin nZ) → List (List Nat × ℝ)) (fuel ncc : Nat) (lab : Fin n ⊕ Fin nZ → Nat) (hcomp : IsComponents L 0 ncc lab)
    (hsmall : Small L) (hf : 2 ^ 32 ≤ fuel) : ∃ s, update L pd pe mix mm murty fuel ncc lab = some s ∧
      births cfg s = (List.finRange nZ).filterMap fun z =>
        let p := min cfg.maxPE (1 - (post (floored L) pd pe fun h => ∃ m, h m = some (some z)) * blockLik L pd pe z)
        if cfg.minPE < p then some (z, p) else none := by
  obtain ⟨s, h1, -, -, -, h2, -⟩ := outcome L pd pe mix mm hok murty fuel ncc lab hcomp hsmall hf
  refine ⟨s, h1, ?_⟩
  unfold births
  simp only [h2]

theorem mass_col_empty (L : Fin n → Fin nZ → ℝ) (pd pe : Fin n → ℝ) (z : Fin nZ) (h : ∀ m, L m z = 0) :
    mass L pd pe (fun h => ∃ m, h m = some (some z)) = 0 := by
  classical
  refine Finset.sum_eq_zero fun h' hh => ?_
  obtain ⟨-, -, m, hm⟩ := (@Finset.mem_filter _ _ (_) _ _).1 hh
  refine Finset.prod_eq_zero (Finset.mem_univ m) ?_
  rw [hm]
  exact h m

/-- C49 (partial): the full statement holds for the table the code works with if every measurement in reach of a track lies in a partition of likelihood one. -/
theorem C49_births_partial (cfg : Cfg) (L : Fin n → Fin nZ → ℝ) (pd pe : Fin n → ℝ) (mix : Fin n → GMix ℝ d) (mm : Fin n → Fin nZ → GMix ℝ d) (hok : Ok L pd pe mix mm)
    (murty : List (Fin n) → List (Fin nZ) → List (List Nat × ℝ)) (fuel ncc : Nat) (lab : Fin n ⊕ Fin nZ → Nat) (hcomp : IsComponents L 0 ncc lab)
    (hsmall : Small L) (hf : 2 ^ 32 ≤ fuel) (hone : ∀ z, (∃ m, 0 < L m z) → blockLik L pd pe z = 1) :
    ∃ s, update L pd pe mix mm murty fuel ncc lab = some s ∧ C49_full cfg (floored L) pd pe s := by
  classical
  obtain ⟨s, h1, h2⟩ := C49_value_partial cfg L pd pe mix mm hok murty fuel ncc lab hcomp hsmall hf
  refine ⟨s, h1, ?_⟩
  unfold C49_full
  rw [h2]
  have : ∀ z, (post (floored L) pd pe fun h => ∃ m, h m = some (some z)) * blockLik L pd pe z = post (floored L) pd pe fun h => ∃ m, h m = some (some z) := by
    intro z
    by_cases hz : ∃ m, 0 < L m z
    · rw [hone z hz, mul_one]
    · push Not at hz
      have : post (floored L) pd pe (fun h => ∃ m, h m = some (some z)) = 0 := by
        unfold post
        rw [mass_col_empty, zero_div]
        intro m
        unfold floored
        rw [if_neg]
        intro h
        -- a measurement without entries is linked with no track
        have hkey : ∀ u v, Linked L 0 u v → v = .inr z → u = .inr z := by
          intro u v h
          induction h with
          | refl v => exact id
          | col i j v hij _ ih =>
            intro e
            have := ih e
            simp only [Sum.inr.injEq] at this
            subst this
            exact absurd hij (not_lt.2 (hz i))
          | row i j v hij _ ih => intro e; exact absurd (ih e) (by simp)
        exact absurd (hkey _ _ h rfl) (by simp)
      rw [this, zero_mul]
  simp only [this]

theorem total_one (L : Fin 1 → Fin 1 → ℝ) (miss : Fin 1 → ℝ) (c : Fin 1 → ℝ) : total L miss c = L 0 0 + miss 0 * c 0 := by
  classical
  unfold total
  have : (Finset.univ : Finset (Fin 1 → Option (Fin 1))).filter OneToOne = {fun _ => some 0, fun _ => none} := by
    ext f
    simp only [Finset.mem_filter, Finset.mem_univ, true_and, Finset.mem_insert, Finset.mem_singleton]
    constructor
    · intro _
      cases h : f 0 with
      | none => right; funext m; rw [Subsingleton.elim m 0, h]
      | some z => left; funext m; rw [Subsingleton.elim m 0, h, Subsingleton.elim z 0]
    · intro _ m m' _ _ _; exact Subsingleton.elim _ _
  rw [this, Finset.sum_pair (by intro h; have := congrFun h 0; cases this)]
  simp

/-- One track, one measurement, in reach of each other. -/
theorem one_linked (x : ℝ) (hx : 0 < x) (u v : Fin 1 ⊕ Fin 1) : Linked (fun (_ : Fin 1) (_ : Fin 1) => x) 0 u v := by
  rcases u with u | u <;> rcases v with v | v <;> rw [Subsingleton.elim u 0, Subsingleton.elim v 0]
  · exact .refl _
  · exact .col 0 0 _ hx (.refl _)
  · exact .row 0 0 _ hx (.refl _)
  · exact .refl _

theorem one_floored (x : ℝ) (hx : 1 / 100 ≤ x) : floored (fun (_ : Fin 1) (_ : Fin 1) => x) = fun _ _ => x := by
  refine floored_dense _ (fun _ _ => by linarith) (fun _ _ _ => le_trans ?_ hx)
  rw [Real.exp_neg, one_div, inv_le_inv₀ (Real.exp_pos _) (by norm_num)]
  linarith [Real.add_one_le_exp (1000 : ℝ)]

theorem one_blockLik (x pd pe : ℝ) (hx : 1 / 100 ≤ x) (z : Fin 1) : blockLik (fun (_ : Fin 1) (_ : Fin 1) => x) (fun _ => pd) (fun _ => pe) z = x + (1 - pd * pe) := by
  classical
  unfold blockLik
  have h1 : (Finset.univ.filter fun m : Fin 1 => Linked (fun (_ : Fin 1) (_ : Fin 1) => x) 0 (.inl m) (.inr z)) = Finset.univ :=
    Finset.filter_true_of_mem fun m _ => one_linked x (by linarith) _ _
  have h2 : (Finset.univ.filter fun z' : Fin 1 => Linked (fun (_ : Fin 1) (_ : Fin 1) => x) 0 (.inr z) (.inr z')) = Finset.univ :=
    Finset.filter_true_of_mem fun m _ => one_linked x (by linarith) _ _
  rw [show (Finset.univ.filter fun m : Fin 1 => Linked (fun (_ : Fin 1) (_ : Fin 1) => x) 0 (.inl m) (.inr z)) = Finset.univ by convert h1,
    show (Finset.univ.filter fun z' : Fin 1 => Linked (fun (_ : Fin 1) (_ : Fin 1) => x) 0 (.inr z) (.inr z')) = Finset.univ by convert h2,
    S_univ, total_one, one_floored x hx]
  ring

theorem one_small (x : ℝ) : Small (fun (_ : Fin 1) (_ : Fin 1) => x) := by
  intro R C _ _ _
  have h1 := Finset.card_le_univ R
  have h2 := Finset.card_le_univ C
  simp only [Fintype.card_fin] at h1 h2
  omega

theorem one_post_seen (x pd pe : ℝ) (z : Fin 1) : post (fun (_ : Fin 1) (_ : Fin 1) => x) (fun _ => pd) (fun _ => pe) (fun h => ∃ m, h m = some (some z)) =
    x / (x + (1 - pd * pe)) := by
  unfold post
  rw [mass_col, mass_true, total_one, total_one, Subsingleton.elim z 0]
  simp [miss0]

/-- The tables of the witnesses: one track with one Gaussian of weight one, one measurement with one corrected Gaussian of weight `w`. -/
theorem one_ok (x pd pe w : ℝ) (l l' : Lm ℝ d) (hx : 0 < x) (hpd : pd ≤ 1) (hpe : 0 ≤ pe) (hpp : pd * pe < 1) (hw : 0 < w) :
    Ok (fun (_ : Fin 1) (_ : Fin 1) => x) (fun _ => pd) (fun _ => pe) (fun _ => addGaussian empty l 1) (fun _ _ => addGaussian empty l' w) := by
  refine ⟨fun _ _ => hx.le, fun _ => hpd, fun _ => hpe, fun _ => hpp, fun _ => by simp [addGaussian, GM.empty], fun _ _ => by simp [addGaussian, GM.empty], ?_, ?_, ?_⟩
  · intro _; simp [wsum, addGaussian, GM.empty]
  · intro _ _; simp [wsum, addGaussian, GM.empty, hw.le]
  · intro _ _ _; simpa [wsum, addGaussian, GM.empty] using hw

/-- C49 does not hold: one track (probabilities of detection and existence 1/2), one measurement of likelihood 1/12. The posterior association probability is
1/10, so the birth probability should be 9/10; the code gives 11/12. -/
theorem C49_violated : ∀ (l : Lm ℝ d) murty fuel ncc lab, 2 ^ 32 ≤ fuel → IsComponents (fun (_ : Fin 1) (_ : Fin 1) => (1 / 12 : ℝ)) 0 ncc lab →
    ∃ s, update (fun _ _ => 1 / 12) (fun _ => 1 / 2) (fun _ => 1 / 2) (fun _ => addGaussian empty l 1) (fun _ _ => addGaussian empty l (1 / 6)) murty fuel ncc lab =
      some s ∧ births ⟨1, 0, 1, 0⟩ s = [(0, 11 / 12)] ∧ ¬ C49_full ⟨1, 0, 1, 0⟩ (fun _ _ => 1 / 12) (fun _ => 1 / 2) (fun _ => 1 / 2) s := by
  intro l murty fuel ncc lab hf hcomp
  obtain ⟨s, h1, h2⟩ := C49_value_partial ⟨1, 0, 1, 0⟩ _ _ _ _ _
    (one_ok (1 / 12) (1 / 2) (1 / 2) (1 / 6) l l (by norm_num) (by norm_num) (by norm_num) (by norm_num) (by norm_num)) murty fuel ncc lab hcomp (one_small _) hf
  have hb : births ⟨1, 0, 1, 0⟩ s = [(0, 11 / 12)] := by
    rw [h2]
    simp only [one_floored (1 / 12) (by norm_num), one_blockLik (1 / 12) (1 / 2) (1 / 2) (by norm_num), one_post_seen]
    norm_num [List.finRange_succ]
  refine ⟨s, h1, hb, ?_⟩
  unfold C49_full
  rw [hb]
  simp only [one_post_seen]
  norm_num [List.finRange_succ]

/-! ### C90: the mixture of an updated track -/

/-- Full statement: the density of a track that exists is the mixture of its old density, with the probability that it was missed, and of its densities
corrected with the measurements, each normalised and with the probability that the track caused the measurement. -/
def C90_full (L : Fin n → Fin nZ → ℝ) (pd pe : Fin n → ℝ) (mix : Fin n → GMix ℝ d) (mm : Fin n → Fin nZ → GMix ℝ d) (m : Fin n) (cs : List (Fin nZ)) (s : St d n nZ) : Prop :=
  (s.mix m).g = scale (post L pd pe (fun h => h m = some none) / post L pd pe (fun h => h m ≠ none)) (mix m).g ++
    cs.flatMap fun z => scale (post L pd pe (fun h => h m = some (some z)) / post L pd pe (fun h => h m ≠ none)) (normed (mm m z).g)

theorem normed_scale (c : ℝ) (hc : c ≠ 0) (l : List (Gauss ℝ d)) : normed (scale c l) = normed l := by
  unfold normed
  rw [wsum_scale]
  unfold scale
  rw [List.map_map]
  refine List.map_congr_left fun e _ => ?_
  simp only [Function.comp]
  rw [mul_div_mul_right _ _ hc]

theorem scale_scale (a b : ℝ) (l : List (Gauss ℝ d)) : scale b (scale a l) = scale (a * b) l := by
  unfold scale
  rw [List.map_map]
  refine List.map_congr_left fun e _ => ?_
  simp only [Function.comp]
  rw [mul_assoc]

theorem built_scale (mix : GMix ℝ d) (mm : Fin nZ → GMix ℝ d) (a : Option (Fin nZ) → ℝ) (B : ℝ) (cs : List (Fin nZ)) :
    built mix mm (fun k => a k * B) cs = scale B (built mix mm a cs) := by
  unfold built
  rw [← scale_scale]
  conv_rhs => unfold scale
  rw [List.map_append, List.map_flatMap]
  congr 1
  refine List.flatMap_congr fun z _ => ?_
  rw [← scale_scale]
  rfl

/-- C90 (partial): what the code computes. A track with nothing in reach keeps its mixture. Otherwise the parts are the right ones and the weights sum to one,
but the part of a measurement is weighted with the total weight of its corrected Gaussians once more, because these are not normalised. -/
theorem C90_value_partial (L : Fin n → Fin nZ → ℝ) (pd pe : Fin n → ℝ) (mix : Fin n → GMix ℝ d) (mm : Fin n → Fin nZ → GMix ℝ d) (hok : Ok L pd pe mix mm)
    (murty : List (Fin n) → List (Fin nZ) → List (List Nat × ℝ)) (fuel ncc : Nat) (lab : Fin n ⊕ Fin nZ → Nat) (hcomp : IsComponents L 0 ncc lab)
    (hsmall : Small L) (hf : 2 ^ 32 ≤ fuel) : ∃ s, update L pd pe mix mm murty fuel ncc lab = some s ∧
      (∀ m, (∀ z, L m z ≤ 0) → s.mix m = mix m) ∧
      ∀ m, (∃ z, 0 < L m z) → ∃ cs : List (Fin nZ), cs.Nodup ∧ (∀ z, z ∈ cs ↔ Linked L 0 (.inl m) (.inr z)) ∧
        (s.mix m).g = normed (scale (post (floored L) pd pe fun h => h m = some none) (mix m).g ++
          cs.flatMap fun z => scale (post (floored L) pd pe fun h => h m = some (some z)) (mm m z).g) ∧ (s.mix m).n = (s.mix m).g.length := by
  obtain ⟨s, h1, -, -, -, -, h2, h3⟩ := outcome L pd pe mix mm hok murty fuel ncc lab hcomp hsmall hf
  refine ⟨s, h1, h2, fun m hm => ?_⟩
  obtain ⟨cs, B, a, b, c, e, f⟩ := h3 m (by
    intro he
    obtain ⟨z, hz⟩ := hm
    exact absurd hz (not_lt.2 (he z)))
  refine ⟨cs, a, b, ?_, f⟩
  rw [e, built_scale, normed_scale B c.ne']
  rfl

theorem mass_split (L : Fin n → Fin nZ → ℝ) (pd pe : Fin n → ℝ) (m : Fin n) (cs : List (Fin nZ)) (hnd : cs.Nodup) (h0 : ∀ z, z ∉ cs → L m z = 0) :
    mass L pd pe (fun h => h m = some none) + (cs.map fun z => mass L pd pe (fun h => h m = some (some z))).sum = mass L pd pe fun h => h m ≠ none := by
  classical
  rw [← List.sum_toFinset _ hnd]
  have hz0 : ∀ z, z ∉ cs.toFinset → mass L pd pe (fun h => h m = some (some z)) = 0 := by
    intro z hz
    refine Finset.sum_eq_zero fun h hh => ?_
    obtain ⟨-, -, hm⟩ := (@Finset.mem_filter _ _ (_) _ _).1 hh
    refine Finset.prod_eq_zero (Finset.mem_univ m) ?_
    rw [hm]
    exact h0 z (fun h => hz (List.mem_toFinset.2 h))
  rw [Finset.sum_subset (Finset.subset_univ _) (fun z _ hz => hz0 z hz)]
  have hm : ∀ E : Hyp n nZ → Prop, mass L pd pe E = ∑ h ∈ (Finset.univ : Finset (Hyp n nZ)).filter Hyp.Valid, if E h then weight L pd pe h else 0 := by
    intro E
    unfold mass
    rw [← Finset.filter_filter, Finset.sum_filter]
  simp only [hm]
  rw [Finset.sum_comm, ← Finset.sum_add_distrib]
  refine Finset.sum_congr rfl fun h _ => ?_
  cases hh : h m with
  | none => simp
  | some x =>
    cases x with
    | none => simp
    | some z => simp

/-- C90 (partial): the full statement holds for a track of total weight one if the corrected Gaussians of every measurement linked with it have total weight
one. -/
theorem C90_mixture_partial (L : Fin n → Fin nZ → ℝ) (pd pe : Fin n → ℝ) (mix : Fin n → GMix ℝ d) (mm : Fin n → Fin nZ → GMix ℝ d) (hok : Ok L pd pe mix mm)
    (murty : List (Fin n) → List (Fin nZ) → List (List Nat × ℝ)) (fuel ncc : Nat) (lab : Fin n ⊕ Fin nZ → Nat) (hcomp : IsComponents L 0 ncc lab)
    (hsmall : Small L) (hf : 2 ^ 32 ≤ fuel) : ∃ s, update L pd pe mix mm murty fuel ncc lab = some s ∧
      ∀ m, (∃ z, 0 < L m z) → wsum (mix m).g = 1 → (∀ z, Linked L 0 (.inl m) (.inr z) → wsum (mm m z).g = 1) →
        ∃ cs : List (Fin nZ), (∀ z, z ∈ cs ↔ Linked L 0 (.inl m) (.inr z)) ∧ C90_full (floored L) pd pe mix mm m cs s := by
  classical
  obtain ⟨s, h1, -, h2⟩ := C90_value_partial L pd pe mix mm hok murty fuel ncc lab hcomp hsmall hf
  refine ⟨s, h1, fun m hm hw1 hw2 => ?_⟩
  obtain ⟨cs, hnd, hcs, hg, -⟩ := h2 m hm
  refine ⟨cs, hcs, ?_⟩
  unfold C90_full
  rw [hg]
  set A : Option (Fin nZ) → ℝ := fun k => post (floored L) pd pe fun h => h m = some k with hA
  have hb : scale (post (floored L) pd pe fun h => h m = some none) (mix m).g ++
      cs.flatMap (fun z => scale (post (floored L) pd pe fun h => h m = some (some z)) (mm m z).g) = built (mix m) (mm m) A cs := rfl
  have hsum : wsum (built (mix m) (mm m) A cs) = post (floored L) pd pe fun h => h m ≠ none := by
    rw [wsum_built, hw1, one_mul]
    have e : (cs.map fun c => wsum (mm m c).g * A (some c)) = cs.map fun c => mass (floored L) pd pe (fun h => h m = some (some c)) * (mass (floored L) pd pe fun _ => True)⁻¹ :=
      List.map_congr_left fun z hz => by rw [hw2 z ((hcs z).1 hz), one_mul]; rfl
    rw [e, List.sum_map_mul_right, hA]
    unfold post
    rw [← mass_split (floored L) pd pe m cs hnd (fun z hz => by
      unfold floored
      rw [if_neg (fun h => hz ((hcs z).2 h))])]
    beta_reduce
    rw [div_eq_mul_inv, div_eq_mul_inv, add_mul]
  rw [hb]
  unfold normed
  rw [hsum]
  unfold built
  rw [List.map_append, List.map_flatMap]
  congr 1
  · unfold scale
    rw [List.map_map]
    refine List.map_congr_left fun e _ => ?_
    simp only [Function.comp, hA]
    rw [mul_div_assoc]
  · refine List.flatMap_congr fun z hz => ?_
    unfold scale
    rw [List.map_map, List.map_map]
    refine List.map_congr_left fun e _ => ?_
    simp only [Function.comp, hA]
    rw [hw2 z ((hcs z).1 hz), div_one, mul_div_assoc]

theorem one_post (x pd pe : ℝ) : (post (fun (_ : Fin 1) (_ : Fin 1) => x) (fun _ => pd) (fun _ => pe) (fun h => h 0 = some none) = pe * (1 - pd) / (x + (1 - pd * pe))) ∧
    (post (fun (_ : Fin 1) (_ : Fin 1) => x) (fun _ => pd) (fun _ => pe) (fun h => h 0 = some (some 0)) = x / (x + (1 - pd * pe))) ∧
    post (fun (_ : Fin 1) (_ : Fin 1) => x) (fun _ => pd) (fun _ => pe) (fun h => h 0 ≠ none) = (x + pe * (1 - pd)) / (x + (1 - pd * pe)) := by
  refine ⟨?_, ?_, ?_⟩
  · unfold post
    rw [mass_missed, mass_true, total_one, total_one]
    simp [miss0, missEx, rowMod]
  · unfold post
    rw [mass_seen, mass_true, total_one, total_one]
    simp [miss0, rowMod]
  · unfold post
    rw [mass_exists, mass_true, total_one, total_one]
    simp [miss0, missEx]

/-- C90 does not hold: one track of one Gaussian (detection 1/2, existence 1/2) and one measurement whose corrected Gaussian has weight 2 (likelihood table
entry 1). Given that the track exists, it was missed with probability 1/5; the code gives its old Gaussian weight 1/9. -/
theorem C90_violated : ∀ (l l' : Lm ℝ d) murty fuel ncc lab, 2 ^ 32 ≤ fuel → IsComponents (fun (_ : Fin 1) (_ : Fin 1) => (1 : ℝ)) 0 ncc lab →
    ∃ s, update (fun _ _ => 1) (fun _ => 1 / 2) (fun _ => 1 / 2) (fun _ => addGaussian empty l 1) (fun _ _ => addGaussian empty l' 2) murty fuel ncc lab =
      some s ∧ (s.mix 0).g = [⟨some l, 1 / 9, 0⟩, ⟨some l', 8 / 9, 0⟩] ∧
      ∀ cs, ¬ C90_full (fun _ _ => 1) (fun _ => 1 / 2) (fun _ => 1 / 2) (fun _ => addGaussian empty l 1) (fun _ _ => addGaussian empty l' 2) 0 cs s := by
  intro l l' murty fuel ncc lab hf hcomp
  obtain ⟨s, h1, -, h2⟩ := C90_value_partial _ _ _ _ _
    (one_ok 1 (1 / 2) (1 / 2) 2 l l' (by norm_num) (by norm_num) (by norm_num) (by norm_num) (by norm_num)) murty fuel ncc lab hcomp (one_small _) hf
  obtain ⟨cs, hnd, hcs, hg, -⟩ := h2 0 ⟨0, one_pos⟩
  have hcs0 : cs = [0] := by
    have h0 : (0 : Fin 1) ∈ cs := (hcs 0).2 (one_linked 1 one_pos _ _)
    rcases cs with _ | ⟨a, cs⟩
    · simp at h0
    · rcases cs with _ | ⟨b, cs⟩
      · rw [Subsingleton.elim a 0]
      · simp [Subsingleton.elim a 0, Subsingleton.elim b 0] at hnd
  obtain ⟨p1, p2, p3⟩ := one_post 1 (1 / 2) (1 / 2)
  have hval : (s.mix 0).g = [⟨some l, 1 / 9, 0⟩, ⟨some l', 8 / 9, 0⟩] := by
    rw [hg, hcs0]
    simp only [one_floored 1 (by norm_num), p1]
    norm_num [p2, normed, scale, wsum, addGaussian, GM.empty]
  refine ⟨s, h1, hval, fun cs' h => ?_⟩
  unfold C90_full at h
  rw [hval, p1, p3] at h
  simp only [addGaussian, GM.empty, scale, List.nil_append, List.map_cons, List.map_nil, List.cons_append, List.cons.injEq, Gauss.mk.injEq] at h
  norm_num at h

/-! ### C91: births -/

/-- C91: the birth step appends one track for every unused measurement, with the existence probability recorded for that measurement and a single Gaussian of
weight one at the inverse measurement, and leaves the other tracks as they are. -/
theorem C91_births (inv : Fin nZ → Lm ℝ d) (bs : List (Fin nZ × ℝ)) (tracks : List (Track ℝ d)) :
    LMB.addBirths inv bs tracks = tracks ++ bs.reverse.map fun b => ⟨b.2, 0, ⟨1, [⟨some (inv b.1), 1, 0⟩], false⟩⟩ := by
  unfold LMB.addBirths
  generalize bs.reverse = cs
  induction cs generalizing tracks with
  | nil => simp
  | cons b cs ih => rw [List.foldl_cons, ih]; simp [addGaussian, GM.empty]

example : LMB.addBirths (fun _ => (⟨fun _ => 0, fun _ _ => 0⟩ : Lm ℝ 1)) [((0 : Fin 1), 1 / 2)] [] = [⟨1 / 2, 0, ⟨1, [⟨some ⟨fun _ => 0, fun _ _ => 0⟩, 1, 0⟩], false⟩⟩] := by
  rw [C91_births]; rfl

/-! ### The whole map update of a particle -/

/-- Likelihood of measurement `z` under track `t`, with existence and detection, over the clutter intensity; zero up to the threshold. -/
noncomputable def ratioOf (env : Env ℝ d nZ) (thr : ℝ) (t : Track ℝ d) (z : Fin nZ) : ℝ :=
  let r := t.P * CBMProps.likOf env z (parts t.gm.g) / env.clut z
  if thr < r then r else 0

theorem entry_eq (env : Env ℝ d nZ) (thr : ℝ) (z : Fin nZ) (t : Track ℝ d) :
    entry env thr z ⟨t.P, parts t.gm.g, trackPd env (parts t.gm.g)⟩ = ratioOf env thr t z := by
  have : gammaOf env z ⟨t.P, parts t.gm.g, trackPd env (parts t.gm.g)⟩ = t.P * CBMProps.likOf env z (parts t.gm.g) / env.clut z := by
    rw [← CBMProps.rho_eq env z _ t.P]
    unfold gammaOf rho
    have h : corrected env z ⟨t.P, parts t.gm.g, trackPd env (parts t.gm.g)⟩ =
        (accepted env z ⟨t.P, parts t.gm.g, trackPd env (parts t.gm.g)⟩).map fun y => (y.1, y.2 * (env.clut z)⁻¹) := by
      unfold corrected accepted
      rw [List.map_filterMap]
      refine List.filterMap_congr fun x _ => ?_
      rw [Option.map_map]
      rfl
    rw [h, List.map_map, show (Prod.snd ∘ fun y : Lm ℝ d × ℝ => (y.1, y.2 * (env.clut z)⁻¹)) = fun y => y.2 * (env.clut z)⁻¹ from rfl, List.sum_map_mul_right]
    ring
  unfold entry ratioOf
  rw [this]

/-- `view` lists the indices of the tracks in view, each once. -/
structure View (env : Env ℝ d nZ) (tracks : List (Track ℝ d)) {n : Nat} (view : Fin n → Nat) (tr : Fin n → Track ℝ d) : Prop where
  inj : Function.Injective view
  get : ∀ m, tracks[view m]? = some (tr m)
  iff : ∀ i t, tracks[i]? = some t → ((∃ m, view m = i) ↔ 0 < trackPd env (parts t.gm.g))

/-- C48, C49, C93 (partial), for `updateMap`: with `view` the tracks in view, the update gives each its posterior existence probability, leaves the existence
probability and mixture of all others alone, records the births of `C49_value_partial` and multiplies the particle's weight by the total weight of the
hypotheses, if no partition needs Murty's algorithm. -/
theorem C48_map_partial {env : Env ℝ d nZ} (he : CBMProps.EnvOk env) (cfg : Cfg) (tracks : List (Track ℝ d)) (h0 : tracks ≠ []) (htr : ∀ t ∈ tracks, TrackOk t) :
    ∃ (n : Nat) (view : Fin n → Nat) (tr : Fin n → Track ℝ d), View env tracks view tr ∧
      let L : Fin n → Fin nZ → ℝ := fun m z => ratioOf env cfg.thr (tr m) z
      let pd : Fin n → ℝ := fun m => trackPd env (parts (tr m).gm.g)
      let pe : Fin n → ℝ := fun m => (tr m).P
      ∀ (murty : ∀ n, List (Fin n) → List (Fin nZ) → List (List Nat × ℝ)) (fuel ncc : Nat) (lab : ∀ n, Fin n ⊕ Fin nZ → Nat),
        IsComponents L 0 ncc (lab n) → Small L → 2 ^ 32 ≤ fuel → ∃ ts bs l, updateMap env cfg tracks murty fuel ncc lab = some (ts, bs, l) ∧
          ts.length = tracks.length ∧
          (∀ m, ∃ t, ts[view m]? = some t ∧ t.P = (post (floored L) pd pe fun h => h m ≠ none) ∧ t.prevP = (tr m).P ∧
            ((∀ z, L m z ≤ 0) → t.gm = (tr m).gm)) ∧
          (∀ i t, tracks[i]? = some t → (∀ m, view m ≠ i) → ts[i]? = some { t with prevP := t.P }) ∧
          (bs = (List.finRange nZ).filterMap fun z =>
            let p := min cfg.maxPE (1 - (post (floored L) pd pe fun h => ∃ m, h m = some (some z)) * blockLik L pd pe z)
            if cfg.minPE < p then some (z, p) else none) ∧
          l = mass (floored L) pd pe fun _ => True := by
  obtain ⟨fov, hfov⟩ : ∃ fov, inFov env (tracks.map fun t => (t, parts t.gm.g)) = fov := ⟨_, rfl⟩
  have hok : Ok (fun (m : Fin fov.length) z => entry env cfg.thr z fov[m].2.2) (fun m => fov[m].2.2.pd) (fun m => fov[m].2.2.p)
      (fun m => fov[m].2.1.gm) (fun m z => mixEntry env z fov[m].2.2) := by
    subst hfov
    exact map_ok he cfg.thr tracks htr
  have hinj : ∀ i j : Fin fov.length, fov[i].1 = fov[j].1 → i = j := by
    subst hfov
    exact inFov_inj env _
  have hmem := mem_inFov env tracks
  rw [hfov] at hmem
  have hcs := mapM_comps tracks htr
  have hget : ∀ m : Fin fov.length, tracks[fov[m].1]? = some fov[m].2.1 ∧ 0 < trackPd env (parts fov[m].2.1.gm.g) ∧
      fov[m].2.2 = ⟨fov[m].2.1.P, parts fov[m].2.1.gm.g, trackPd env (parts fov[m].2.1.gm.g)⟩ := fun m => (hmem fov[m]).1 (List.getElem_mem m.2)
  have hL : (fun (m : Fin fov.length) z => entry env cfg.thr z fov[m].2.2) = fun m z => ratioOf env cfg.thr fov[m].2.1 z := by
    funext m z
    rw [(hget m).2.2]
    exact entry_eq env cfg.thr z _
  have hpd : (fun m : Fin fov.length => fov[m].2.2.pd) = fun m => trackPd env (parts fov[m].2.1.gm.g) := by funext m; rw [(hget m).2.2]
  have hpe : (fun m : Fin fov.length => fov[m].2.2.p) = fun m => fov[m].2.1.P := by funext m; rw [(hget m).2.2]
  refine ⟨fov.length, fun m => fov[m].1, fun m => fov[m].2.1, ⟨fun a b h => hinj a b h, fun m => (hget m).1, ?_⟩, ?_⟩
  · intro i t ht
    constructor
    · rintro ⟨m, rfl⟩
      have := (hget m).1
      rw [ht] at this
      cases this
      exact (hget m).2.1
    · intro hp
      have := (hmem (i, t, ⟨t.P, parts t.gm.g, trackPd env (parts t.gm.g)⟩)).2 ⟨ht, hp, rfl⟩
      obtain ⟨k, hk, hg⟩ := List.mem_iff_getElem.1 this
      exact ⟨⟨k, hk⟩, by show fov[k].1 = i; rw [hg]⟩
  · intro L pd pe murty fuel ncc lab hcomp hsmall hf
    simp only [hL, hpd, hpe] at hok
    obtain ⟨s, h1, h2, h3, h4, h5, h6, -⟩ := outcome _ _ _ _ _ hok (murty _) fuel ncc (lab _) hcomp hsmall hf
    have hup : updateMap env cfg tracks murty fuel ncc lab = some ((List.finRange fov.length).foldl
        (fun ts m => ts.modify fov[m].1 fun t => { t with P := s.P m, gm := s.mix m }) (tracks.map fun t => { t with prevP := t.P }), births cfg s, s.l) := by
      unfold LMB.updateMap
      rw [if_neg (by simpa using h0), hcs, Option.bind_some]
      rw [hfov]
      unfold updateFov
      rw [hL, hpd, hpe, h1]
      rfl
    refine ⟨_, _, _, hup, ?_, ?_, ?_, ?_, h2⟩
    · rw [modify_length (fun m : Fin fov.length => fov[m].1), List.length_map]
    · intro m
      refine ⟨⟨s.P m, (fov[m].2.1).P, s.mix m⟩, ?_, h4 m, rfl, fun hz => h6 m hz⟩
      rw [modify_one (fun m : Fin fov.length => fov[m].1) _ _ (List.nodup_finRange _) (fun a b h => hinj a b h) _ m (List.mem_finRange m), List.getElem?_map,
        (hget m).1]
      rfl
    · intro i t ht hi
      rw [modify_other (fun m : Fin fov.length => fov[m].1) _ _ _ i (fun m _ => hi m), List.getElem?_map, ht]
      rfl
    · show births cfg s = _
      unfold births
      simp only [h5]
      rfl

/-! ### C92: births of particles without a track in view -/

theorem mass_empty (hn : n = 0) (L : Fin n → Fin nZ → ℝ) (pd pe : Fin n → ℝ) : mass L pd pe (fun _ => True) = 1 := by
  classical
  subst hn
  rw [mass_true]
  unfold total
  rw [Finset.filter_true_of_mem (fun f _ m => m.elim0)]
  simp

theorem conn_empty (hn : n = 0) (C : Fin n → Fin nZ → ℝ) (u v : Fin n ⊕ Fin nZ) : Conn C 0 u v ↔ u = v := by
  subst hn
  constructor
  · intro h
    induction h with
    | rel x y h =>
      rcases h with ⟨i, _⟩
      exact i.elim0
    | refl => rfl
    | symm _ _ _ ih => exact ih.symm
    | trans _ _ _ _ _ h1 h2 => exact h1.trans h2
  · rintro rfl; exact .refl _

/-- Full statement: the births of a particle without a track in view do not depend on the tracks it has elsewhere. -/
def C92_full (env : Env ℝ d nZ) (cfg : Cfg) (tracks : List (Track ℝ d)) : Prop :=
  (∀ t ∈ tracks, trackPd env (parts t.gm.g) ≤ 0) → ∀ murty fuel ncc lab ts bs l ts' bs' l',
    updateMap env cfg tracks murty fuel ncc lab = some (ts, bs, l) → updateMap env cfg [] murty fuel ncc lab = some (ts', bs', l') → bs = bs'

/-- C92 (partial), what the code does: with no track at all every measurement gives a birth of probability `min maxPE (expected / nZ)`; with tracks, none of
them in view, one of probability `min maxPE 1`, if that exceeds `minPE`. The tracks themselves are left alone and the weight factor is one in both cases. -/
theorem C92_value_partial {env : Env ℝ d nZ} (he : CBMProps.EnvOk env) (cfg : Cfg) (tracks : List (Track ℝ d)) (htr : ∀ t ∈ tracks, TrackOk t)
    (hout : ∀ t ∈ tracks, trackPd env (parts t.gm.g) ≤ 0) (murty : ∀ n, List (Fin n) → List (Fin nZ) → List (List Nat × ℝ)) (fuel ncc : Nat)
    (lab : ∀ n, Fin n ⊕ Fin nZ → Nat) (hcomp : IsComponents (fun (_ : Fin 0) (_ : Fin nZ) => (0 : ℝ)) 0 ncc (lab 0)) (hf : 2 ^ 32 ≤ fuel) :
    ∃ ts bs, updateMap env cfg tracks murty fuel ncc lab = some (ts, bs, 1) ∧ ts.map Track.P = tracks.map Track.P ∧ ts.map Track.gm = tracks.map Track.gm ∧
      bs = (if tracks = [] then (List.finRange nZ).map fun z => (z, min cfg.maxPE (cfg.expected / nZ))
        else if cfg.minPE < min cfg.maxPE 1 then (List.finRange nZ).map fun z => (z, min cfg.maxPE 1) else []) := by
  by_cases h0 : tracks = []
  · subst h0
    exact ⟨[], _, rfl, rfl, rfl, rfl⟩
  · obtain ⟨n, view, tr, hv, hall⟩ := C48_map_partial he cfg tracks h0 htr
    have hn : n = 0 := by
      by_contra h
      have hm := hv.get ⟨0, by omega⟩
      exact absurd ((hv.iff _ _ hm).1 ⟨_, rfl⟩) (not_lt.2 (hout _ (List.mem_of_getElem? hm)))
    have hc : IsComponents (fun (m : Fin n) (z : Fin nZ) => ratioOf env cfg.thr (tr m) z) 0 ncc (lab n) := by
      subst hn
      exact ⟨hcomp.lt, hcomp.onto, fun u v => by rw [hcomp.conn, conn_empty rfl, conn_empty rfl]⟩
    have hs : Small (fun (m : Fin n) (z : Fin nZ) => ratioOf env cfg.thr (tr m) z) := by
      subst hn
      rintro R C ⟨r, -⟩
      exact r.elim0
    obtain ⟨ts, bs, l, h1, h2, h3, h4, h5, h6⟩ := hall murty fuel ncc lab hc hs hf
    rw [mass_empty hn] at h6
    have hts : ts = tracks.map fun t => { t with prevP := t.P } := by
      refine List.ext_getElem? fun i => ?_
      rw [List.getElem?_map]
      cases ht : tracks[i]? with
      | none => exact List.getElem?_eq_none (by rw [h2]; exact List.getElem?_eq_none_iff.1 ht)
      | some t => exact h4 i t ht fun m => absurd m.2 (by omega)
    refine ⟨ts, bs, by rw [h1, h6], by rw [hts]; simp, by rw [hts]; simp, ?_⟩
    rw [if_neg h0, h5]
    have hp : ∀ z : Fin nZ, (post (floored fun (m : Fin n) (z : Fin nZ) => ratioOf env cfg.thr (tr m) z) (fun m => trackPd env (parts (tr m).gm.g)) (fun m => (tr m).P)
        fun h => ∃ m, h m = some (some z)) = 0 := by
      intro z
      unfold post
      rw [mass_col_empty _ _ _ z fun m => absurd m.2 (by omega), zero_div]
    simp only [hp, zero_mul, sub_zero]
    split <;> simp

/-- The label of measurement `z` is `z`. -/
def idLab (nZ : Nat) : ∀ n, Fin n ⊕ Fin nZ → Nat
  | _, .inl _ => 0
  | _, .inr z => z

theorem idLab_comps : IsComponents (fun (_ : Fin 0) (_ : Fin nZ) => (0 : ℝ)) 0 nZ (idLab nZ 0) := by
  refine ⟨?_, fun x hx => ⟨.inr ⟨x, hx⟩, rfl⟩, fun u v => ?_⟩
  · rintro (v | v)
    · exact v.elim0
    · exact v.2
  · rw [conn_empty rfl]
    rcases u with u | u
    · exact u.elim0
    · rcases v with v | v
      · exact v.elim0
      · simp [idLab, Fin.ext_iff]

/-- C92 does not hold: two measurements, one birth expected. A particle without tracks records births of probability 1/2; a particle with one track far out
of view records births of probability 1. -/
theorem C92_violated (l0 : Lm ℝ d) : ∃ (env : Env ℝ d 2) (cfg : Cfg) (tracks : List (Track ℝ d)), CBMProps.EnvOk env ∧ (∀ t ∈ tracks, TrackOk t) ∧
    (∀ t ∈ tracks, trackPd env (parts t.gm.g) ≤ 0) ∧ ¬ C92_full env cfg tracks := by
  refine ⟨⟨fun _ => 0, fun _ _ => none, fun _ => 1⟩, ⟨1, 0, 1, 0⟩, [⟨1 / 2, 0, addGaussian empty l0 1⟩], ⟨by simp, by simp, by simp, by simp⟩, ?_, ?_, ?_⟩
  · intro t ht
    rw [List.mem_singleton] at ht
    subst ht
    exact ⟨by norm_num, by norm_num, by simp [addGaussian, GM.empty], by simp [addGaussian, GM.empty], by simp [addGaussian, GM.empty],
      by simp [addGaussian, GM.empty, wsum]⟩
  · intro t _; simp [trackPd]
  · intro hfull
    have hok : ∀ t ∈ [(⟨1 / 2, 0, addGaussian empty l0 1⟩ : Track ℝ d)], TrackOk t := by
      intro t ht
      rw [List.mem_singleton] at ht
      subst ht
      exact ⟨by norm_num, by norm_num, by simp [addGaussian, GM.empty], by simp [addGaussian, GM.empty], by simp [addGaussian, GM.empty],
        by simp [addGaussian, GM.empty, wsum]⟩
    have he : CBMProps.EnvOk (⟨fun _ => 0, fun _ _ => none, fun _ => 1⟩ : Env ℝ d 2) := ⟨by simp, by simp, by simp, by simp⟩
    obtain ⟨ts, bs, h1, -, -, h2⟩ := C92_value_partial he ⟨1, 0, 1, 0⟩ _ hok (by intro t _; simp [trackPd]) (fun _ _ _ => []) (2 ^ 32) 2 (idLab 2) idLab_comps le_rfl
    obtain ⟨ts', bs', h1', -, -, h2'⟩ := C92_value_partial he ⟨1, 0, 1, 0⟩ [] (by simp) (by simp) (fun _ _ _ => []) (2 ^ 32) 2 (idLab 2) idLab_comps le_rfl
    have := hfull (by intro t _; simp [trackPd]) _ _ _ _ _ _ _ _ _ _ h1 h1'
    rw [h2, h2', if_neg (by simp), if_pos rfl, if_pos (by norm_num)] at this
    simp only [List.finRange_succ, List.map_cons, List.cons.injEq, Prod.mk.injEq] at this
    norm_num at this

/-! ### C93: the weight of a particle -/

/-- C93 (partial): the factor by which the update multiplies a particle's weight is the total weight of all hypotheses of the tracks in view (existence,
detection, association), relative to all measurements being clutter; it is positive. Missing: partitions that need Murty's algorithm. -/
theorem C93_weight_partial (L : Fin n → Fin nZ → ℝ) (pd pe : Fin n → ℝ) (mix : Fin n → GMix ℝ d) (mm : Fin n → Fin nZ → GMix ℝ d) (hok : Ok L pd pe mix mm)
    (murty : List (Fin n) → List (Fin nZ) → List (List Nat × ℝ)) (fuel ncc : Nat) (lab : Fin n ⊕ Fin nZ → Nat) (hcomp : IsComponents L 0 ncc lab)
    (hsmall : Small L) (hf : 2 ^ 32 ≤ fuel) : ∃ s, update L pd pe mix mm murty fuel ncc lab = some s ∧ s.l = mass (floored L) pd pe (fun _ => True) ∧ 0 < s.l := by
  obtain ⟨s, h1, h2, h3, -⟩ := outcome L pd pe mix mm hok murty fuel ncc lab hcomp hsmall hf
  exact ⟨s, h1, h2, h3⟩

/-- C93: whether a particle without a track in view has tracks elsewhere makes no difference to the factor. -/
theorem C93_out_of_view {env : Env ℝ d nZ} (he : CBMProps.EnvOk env) (cfg : Cfg) (tracks : List (Track ℝ d)) (htr : ∀ t ∈ tracks, TrackOk t)
    (hout : ∀ t ∈ tracks, trackPd env (parts t.gm.g) ≤ 0) (murty : ∀ n, List (Fin n) → List (Fin nZ) → List (List Nat × ℝ)) (fuel ncc : Nat)
    (lab : ∀ n, Fin n ⊕ Fin nZ → Nat) (hcomp : IsComponents (fun (_ : Fin 0) (_ : Fin nZ) => (0 : ℝ)) 0 ncc (lab 0)) (hf : 2 ^ 32 ≤ fuel) :
    ∃ ts bs, updateMap env cfg tracks murty fuel ncc lab = some (ts, bs, 1) := by
  obtain ⟨ts, bs, h, -⟩ := C92_value_partial he cfg tracks htr hout murty fuel ncc lab hcomp hf
  exact ⟨ts, bs, h⟩

/-- The hypotheses of the theorems above can be met: one track, one measurement in reach. -/
example (l l' : Lm ℝ d) : Ok (fun (_ : Fin 1) (_ : Fin 1) => (1 : ℝ)) (fun _ => 1 / 2) (fun _ => 1 / 2) (fun _ => addGaussian empty l 1) (fun _ _ => addGaussian empty l' 2) ∧
    Small (fun (_ : Fin 1) (_ : Fin 1) => (1 : ℝ)) ∧ IsComponents (fun (_ : Fin 1) (_ : Fin 1) => (1 : ℝ)) 0 1 (fun _ => 0) := by
  refine ⟨one_ok 1 (1 / 2) (1 / 2) 2 l l' (by norm_num) (by norm_num) (by norm_num) (by norm_num) (by norm_num), one_small 1, ⟨by simp, ?_, ?_⟩⟩
  · intro x hx
    exact ⟨.inl 0, by omega⟩
  · intro u v
    simp only [true_iff]
    exact (linked_iff_conn _ _ _ _).1 (one_linked 1 one_pos u v)

end LMBProps
end RFS
