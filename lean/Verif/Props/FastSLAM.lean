import Verif.Lemmas.FastSLAM
import Verif.Props.ParticleFilter
import Mathlib.Tactic.NormNum
import Mathlib.Data.List.TakeWhile

/-!
Properties of the FastSLAM map update: C52, C53, C94-C99.
-/

namespace RFS
namespace FastSLAMProps
open Hungarian (Mat)
open FastSLAM

variable {Lm : Type} {nZ : Nat}

/-! ### Specification of a scan -/

/-- Hypothesis `da` gives measurement `z` to the `m`-th landmark in range, the log-likelihood `c` of the pair is above the limit, and the Kalman correction
succeeds with result `lm'`. -/
def Matched (env : Env Lm nZ) (cfg : Cfg) (lms : List (Nat × Lm × ℝ)) (da : Fin (max lms.length nZ) → Option (Fin nZ)) (m : Fin lms.length) (z : Fin nZ)
    (lm' : Lm) (c : ℝ) : Prop :=
  da ⟨m, lt_of_lt_of_le m.2 (le_max_left _ _)⟩ = some z ∧ (∃ l, env.lik lms[m].2.1 = some l ∧ l z ≠ 0 ∧ c = Real.log (l z) ∧ cfg.minLL < c) ∧
    env.corr z lms[m].2.1 = some lm'

/-- Evidence of a measurement for the existence of a landmark: it is detected with probability `pd`, and is mistaken for one with probability `pfa`. -/
noncomputable def evHit (pfa pd : ℝ) : ℝ := Real.log ((pd + (1 - pd) * pfa) / pfa)

/-- Evidence of a miss. -/
noncomputable def evMiss (pd : ℝ) : ℝ := Real.log (1 - pd)

/-- Log-odds of a probability. -/
noncomputable def logit (p : ℝ) : ℝ := Real.log (p / (1 - p))

/-- What a scan does to the landmarks of a map under hypothesis `da`: landmarks out of range stay; matched landmarks are corrected; the weights take the
evidence and the log-odds of the prior; `logW` is the sum of the log-likelihoods of the matched pairs; `unused` are the measurements that match none. -/
structure Scanned (env : Env Lm nZ) (cfg : Cfg) (map : List (Lm × ℝ)) (da : Fin (max (inRange env map).length nZ) → Option (Fin nZ)) (map' : List (Lm × ℝ)) (logW : ℝ)
    (unused : List (Fin nZ)) : Prop where
  length : map'.length = map.length
  outside : ∀ (i : Nat) (l : Lm) (w : ℝ), map[i]? = some (l, w) → env.pd l = 0 → env.close l = false → map'[i]? = some (l, w)
  matched : ∀ m z lm' c (w : ℝ), Matched env cfg _ da m z lm' c → map[(inRange env map)[m].1]? = some ((inRange env map)[m].2.1, w) →
    map'[(inRange env map)[m].1]? = some (lm', w + (logit cfg.prior + evHit (env.clutter / nZ) (env.pd (inRange env map)[m].2.1)))
  missed : ∀ m (w : ℝ), (∀ z lm' c, ¬ Matched env cfg _ da m z lm' c) → map[(inRange env map)[m].1]? = some ((inRange env map)[m].2.1, w) →
    (w ≤ cfg.lockW → map'[(inRange env map)[m].1]? = some ((inRange env map)[m].2.1, w + (logit cfg.prior + evMiss (env.pd (inRange env map)[m].2.1)))) ∧
    (cfg.lockW < w → map'[(inRange env map)[m].1]? = some ((inRange env map)[m].2.1, w))
  weight : ∃ c : Fin (inRange env map).length → ℝ, (∀ m z lm' x, Matched env cfg _ da m z lm' x → c m = x) ∧
    (∀ m, (∀ z lm' x, ¬ Matched env cfg _ da m z lm' x) → c m = 0) ∧ logW = ∑ m, c m
  unused : unused.Pairwise (· < ·) ∧ ∀ z, z ∈ unused ↔ ∀ m lm' c, ¬ Matched env cfg _ da m z lm' c

/-- The landmarks in range are those of the map with a non-zero probability of detection or close to the limit of the sensor, each once. -/
theorem inRange_spec (env : Env Lm nZ) (map : List (Lm × ℝ)) : ((inRange env map).map Prod.fst).Nodup ∧
    ∀ i l pd, (i, l, pd) ∈ inRange env map ↔ ∃ w, map[i]? = some (l, w) ∧ pd = env.pd l ∧ (env.pd l ≠ 0 ∨ env.close l = true) :=
  ⟨inRange_nodup env map, fun i l pd => mem_inRange env map (i, l, pd)⟩

theorem odds_hit (cfg : Cfg) (pfa pd w : ℝ) (h0 : 0 < cfg.prior) (h1 : cfg.prior < 1) (hf : 0 < pfa) (hp0 : 0 ≤ pd) (hp1 : pd ≤ 1) :
    Real.log (existence cfg pfa pd w true / (1 - existence cfg pfa pd w true)) = logit cfg.prior + evHit pfa pd := by
  have hden : 0 < pfa + (1 - pfa) * pd * cfg.prior := by
    have : 0 ≤ pd * cfg.prior := mul_nonneg hp0 h0.le
    have h2 : pd * cfg.prior < 1 := by nlinarith
    nlinarith
  have hn : 0 < pd + (1 - pd) * pfa := by
    rcases eq_or_lt_of_le hp0 with h | h
    · rw [← h]; simpa using hf
    · have : 0 ≤ (1 - pd) * pfa := mul_nonneg (by linarith) hf.le
      linarith
  have h1' : 0 < 1 - cfg.prior := by linarith
  unfold logit evHit
  rw [← Real.log_mul (ne_of_gt (div_pos h0 h1')) (ne_of_gt (div_pos hn hf))]
  congr 1
  unfold existence
  rw [if_pos rfl]
  have e : 1 - ((1 - pd) * pfa * cfg.prior + pd * cfg.prior) / (pfa + (1 - pfa) * pd * cfg.prior) = pfa * (1 - cfg.prior) / (pfa + (1 - pfa) * pd * cfg.prior) := by
    rw [eq_div_iff hden.ne', sub_mul, div_mul_cancel₀ _ hden.ne']
    ring
  rw [e, div_div_div_cancel_right₀ hden.ne', div_mul_div_comm]
  congr 1 <;> ring

theorem odds_miss (cfg : Cfg) (pfa pd w : ℝ) (h0 : 0 < cfg.prior) (h1 : cfg.prior < 1) (hp1 : pd < 1) (hw : w ≤ cfg.lockW) :
    Real.log (existence cfg pfa pd w false / (1 - existence cfg pfa pd w false)) = logit cfg.prior + evMiss pd := by
  have hd : 0 < (1 - cfg.prior) + (1 - pd) * cfg.prior := by nlinarith
  have h1' : 0 < 1 - cfg.prior := by linarith
  unfold logit evMiss
  rw [← Real.log_mul (ne_of_gt (div_pos h0 h1')) (by linarith)]
  congr 1
  unfold existence
  rw [if_neg (by simp), if_neg (not_lt.2 hw)]
  have e : 1 - (1 - pd) * cfg.prior / ((1 - cfg.prior) + (1 - pd) * cfg.prior) = (1 - cfg.prior) / ((1 - cfg.prior) + (1 - pd) * cfg.prior) := by
    rw [eq_div_iff hd.ne', sub_mul, div_mul_cancel₀ _ hd.ne']
    ring
  rw [e, div_div_div_cancel_right₀ hd.ne']
  ring

theorem odds_lock (cfg : Cfg) (pfa pd w : ℝ) (hw : cfg.lockW < w) : Real.log (existence cfg pfa pd w false / (1 - existence cfg pfa pd w false)) = 0 := by
  unfold existence
  rw [if_neg (by simp), if_pos hw]
  norm_num

section scan

variable {env : Env Lm nZ} {cfg : Cfg} {map : List (Lm × ℝ)} {da : Fin (max (inRange env map).length nZ) → Option (Fin nZ)}

theorem at_row (m : Fin (inRange env map).length) : ∃ w, map[(inRange env map)[m].1]? = some ((inRange env map)[m].2.1, w) ∧
    (inRange env map)[m].2.2 = env.pd (inRange env map)[m].2.1 := by
  obtain ⟨w, h1, h2, _⟩ := (mem_inRange env map (inRange env map)[m]).1 (List.getElem_mem m.2)
  exact ⟨w, h1, h2⟩

theorem hitOf_eq (m : Fin (inRange env map).length) : hitOf env cfg map (rows env cfg _ da m) =
    corrected env cfg (fun z => tableEntry env cfg (inRange env map) m z) (da ⟨m, lt_of_lt_of_le m.2 (le_max_left _ _)⟩) (inRange env map)[m].2.1 := by
  obtain ⟨w, h, _⟩ := at_row (env := env) (map := map) m
  unfold hitOf
  show (map[(inRange env map)[m].1]?).bind _ = _
  rw [h]
  rfl

theorem hit_iff (m : Fin (inRange env map).length) (z : Fin nZ) (lm' : Lm) (c : ℝ) :
    (hitOf env cfg map (rows env cfg _ da m) = some (z, lm') ∧ tableEntry env cfg (inRange env map) m z = c) ↔ Matched env cfg _ da m z lm' c := by
  rw [hitOf_eq]
  unfold corrected Matched
  rw [← tableEntry_gt]
  rcases da ⟨m, lt_of_lt_of_le m.2 (le_max_left _ _)⟩ with _ | z'
  · simp
  · simp only [Option.bind_some, Option.some.injEq]
    split
    · next h =>
      cases hc : env.corr z' (inRange env map)[m].2.1 with
      | none =>
        simp only [Option.map_none, reduceCtorEq, false_and, false_iff]
        rintro ⟨rfl, _, h⟩
        rw [hc] at h
        exact absurd h (by simp)
      | some x =>
        simp only [Option.map_some, Option.some.injEq, Prod.mk.injEq]
        constructor
        · rintro ⟨⟨rfl, rfl⟩, rfl⟩
          exact ⟨rfl, ⟨rfl, h⟩, hc⟩
        · rintro ⟨rfl, ⟨rfl, _⟩, h3⟩
          rw [hc, Option.some.injEq] at h3
          exact ⟨⟨rfl, h3⟩, rfl⟩
    · next h =>
      simp only [reduceCtorEq, false_and, false_iff]
      rintro ⟨rfl, ⟨rfl, h2⟩, _⟩
      exact h h2

theorem hit_none (m : Fin (inRange env map).length) : hitOf env cfg map (rows env cfg _ da m) = none ↔ ∀ z lm' c, ¬ Matched env cfg _ da m z lm' c := by
  constructor
  · intro h z lm' c hm
    rw [((hit_iff m z lm' c).2 hm).1] at h
    exact absurd h (by simp)
  · intro h
    rcases he : hitOf env cfg map (rows env cfg _ da m) with _ | ⟨z, lm'⟩
    · rfl
    · exact absurd ((hit_iff m z lm' _).1 ⟨he, rfl⟩) (h z lm' _)

theorem lmLoop_scanned (hok : Ok env cfg) : ∃ s, lmLoop env cfg (inRange env map) da map = .ok s ∧
    Scanned env cfg map da s.map s.logW ((List.finRange nZ).filter fun z => !s.used z) := by
  refine ⟨_, lmLoop_eq hok map da, ?_, ?_, ?_, ?_, ?_, ?_⟩
  · exact modify_length (fun m => (rows env cfg (inRange env map) da m).idx) (fun m => newLm env cfg (rows env cfg (inRange env map) da m)) _ map
  · intro i l w h1 h2 h3
    simp only
    refine (modify_other (fun m => (rows env cfg (inRange env map) da m).idx) (fun m => newLm env cfg (rows env cfg (inRange env map) da m)) _ map i ?_).trans h1
    rintro m - rfl
    obtain ⟨w', h4, h5, h6⟩ := (mem_inRange env map (inRange env map)[m]).1 (List.getElem_mem m.2)
    rw [show map[(rows env cfg (inRange env map) da m).idx]? = _ from h4, Option.some.injEq, Prod.mk.injEq] at h1
    rw [h1.1] at h6
    rcases h6 with h6 | h6
    · exact h6 h2
    · rw [h3] at h6; exact absurd h6 (by simp)
  all_goals
    have hinj : Function.Injective fun m => (rows env cfg (inRange env map) da m).idx := by
      intro a b hab
      have := List.nodup_iff_injective_get.1 (inRange_nodup env map)
      have h' := @this (a.cast (by simp)) (b.cast (by simp)) (by simpa [rows] using hab)
      simpa [Fin.ext_iff] using h'
    have hone := modify_one (fun m => (rows env cfg (inRange env map) da m).idx) (fun m => newLm env cfg (rows env cfg (inRange env map) da m)) _
      (List.nodup_finRange (inRange env map).length) hinj map
  · intro m z lm' c w hm hw
    have h := hone m (List.mem_finRange m)
    simp only at h ⊢
    refine h.trans ?_
    have hw' : map[(rows env cfg (inRange env map) da m).idx]? = _ := hw
    rw [hw']
    obtain ⟨w', _, hpd⟩ := at_row (env := env) (map := map) m
    have h2 := ((hit_iff m z lm' c).2 hm).1
    rw [hitOf_eq] at h2
    simp only [Option.map_some]
    congr 1
    unfold newLm
    simp only [rows]
    rw [h2]
    simp only
    rw [hpd, odds_hit cfg _ _ _ hok.p0 hok.p1 hok.cl (hok.pd0 _) (hok.pd1 _).le]
  · intro m w hm hw
    have h := hone m (List.mem_finRange m)
    have hw' : map[(rows env cfg (inRange env map) da m).idx]? = _ := hw
    rw [hw'] at h
    obtain ⟨w', _, hpd⟩ := at_row (env := env) (map := map) m
    have h2 := (hit_none m).2 hm
    rw [hitOf_eq] at h2
    have e : newLm env cfg (rows env cfg (inRange env map) da m) ((inRange env map)[m].2.1, w) =
        ((inRange env map)[m].2.1, w + Real.log (existence cfg (env.clutter / nZ) (env.pd (inRange env map)[m].2.1) w false /
          (1 - existence cfg (env.clutter / nZ) (env.pd (inRange env map)[m].2.1) w false))) := by
      unfold newLm
      simp only [rows]
      rw [h2]
      simp only
      rw [hpd]
    constructor
    · intro hl
      refine h.trans ?_
      rw [Option.map_some, e, odds_miss cfg _ _ _ hok.p0 hok.p1 (hok.pd1 _) hl]
    · intro hl
      refine h.trans ?_
      rw [Option.map_some, e, odds_lock cfg _ _ _ hl, add_zero]
  · refine ⟨fun m => ((hitOf env cfg map (rows env cfg _ da m)).map fun x => (rows env cfg _ da m).ll x.1).getD 0, ?_, ?_, rfl⟩
    · intro m z lm' x hm
      obtain ⟨h1, h2⟩ := (hit_iff m z lm' x).2 hm
      simp only [h1, Option.map_some, Option.getD_some]
      exact h2
    · intro m hm
      simp only [(hit_none m).2 hm, Option.map_none, Option.getD_none]
  · refine ⟨(List.pairwise_lt_finRange nZ).filter _, fun z => ?_⟩
    simp only [List.mem_filter, List.mem_finRange, true_and, Bool.not_eq_true', decide_eq_false_iff_not, not_exists]
    constructor
    · intro h m lm' c hm
      refine h m ?_
      rw [((hit_iff m z lm' c).2 hm).1]
      rfl
    · intro h m hm
      rcases he : hitOf env cfg map (rows env cfg _ da m) with _ | ⟨z', lm'⟩
      · rw [he] at hm; exact absurd hm (by simp)
      · rw [he] at hm
        simp only [Option.map_some, Option.some.injEq] at hm
        subst hm
        exact h m lm' _ ((hit_iff m z' lm' _).1 ⟨he, rfl⟩)

end scan

/-! ### C52 -/

/-- Column `j` of the table is the only candidate of row `i`, and `i` is its only candidate. -/
def Determined {n : Nat} (T : Fin n → Fin n → ℝ) (lim : ℝ) (i j : Fin n) : Prop := lim < T i j ∧ (∀ j', j' ≠ j → T i j' ≤ lim) ∧ ∀ i', i' ≠ i → T i' j ≤ lim

theorem sole_iff_determined {n : Nat} (T : Mat ℝ n) (lim : ℝ) (i j : Fin n) : CostMat.Sole lim true T i j ↔ Determined T lim i j := by
  simp [CostMat.Sole, CostMat.beyond, Determined]

theorem openRows_length {n : Nat} (T : Mat ℝ n) (lim : ℝ) : (openRows T lim).length ≤ 1 ↔ ∀ i i', (∀ j, ¬ Determined T lim i j) → (∀ j, ¬ Determined T lim i' j) → i = i' := by
  classical
  have hnd : (openRows T lim).Nodup := (List.nodup_finRange n).filter _
  have hmem : ∀ i, i ∈ openRows T lim ↔ ∀ j, ¬ Determined T lim i j := by
    intro i
    unfold openRows
    rw [List.mem_filter, decide_eq_true_eq]
    simp only [List.mem_finRange, true_and, sole_iff_determined]
  constructor
  · intro h i i' hi hi'
    rw [← hmem] at hi hi'
    rcases hl : openRows T lim with _ | ⟨a, l⟩
    · rw [hl] at hi; exact absurd hi (by simp)
    · rw [hl] at hi hi' h
      have : l = [] := by simpa using h
      subst this
      rw [List.mem_singleton] at hi hi'
      rw [hi, hi']
  · intro h
    by_contra hc
    rcases hl : openRows T lim with _ | ⟨a, _ | ⟨b, l⟩⟩
    · rw [hl] at hc; simp at hc
    · rw [hl] at hc; simp at hc
    · have ha := (hmem a).1 (by rw [hl]; simp)
      have hb := (hmem b).1 (by rw [hl]; simp)
      rw [hl, List.nodup_cons] at hnd
      exact hnd.1 (by rw [h a b ha hb]; simp)

/-- **C52** fails. If at most one row of the table of log-likelihoods is ambiguous, the reduction decides the association and no hypothesis is counted:
`updateMap` writes to an array of length zero, and no landmark is updated. -/
theorem C52_violated (env : Env Lm nZ) (cfg : Cfg) (murty : ∀ m, Mat ℝ m → List ((Fin m → Fin m) × ℝ)) (prune : List (Lm × ℝ) → List (Lm × ℝ)) (resampled : Bool)
    (p : Particle Lm) (cands : Nat → List (Cand Lm))
    (h : ∀ i i', (∀ j, ¬ Determined (table env cfg (inRange env p.map)) cfg.minLL i j) → (∀ j, ¬ Determined (table env cfg (inRange env p.map)) cfg.minLL i' j) → i = i') :
    updateMap env cfg murty prune resampled p cands = .error .ub := by
  unfold updateMap
  rw [(hypotheses_spec cfg murty (table env cfg (inRange env p.map)) fun i j => tableEntry_ge env cfg _ i j).1 ((openRows_length _ _).2 h)]
  rfl

/-- **C52** fails for every scan with one measurement when at most one landmark is in range. -/
theorem C52_violated_single (env : Env Lm 1) (cfg : Cfg) (murty : ∀ m, Mat ℝ m → List ((Fin m → Fin m) × ℝ)) (prune : List (Lm × ℝ) → List (Lm × ℝ)) (resampled : Bool)
    (p : Particle Lm) (cands : Nat → List (Cand Lm)) (h : (inRange env p.map).length ≤ 1) : updateMap env cfg murty prune resampled p cands = .error .ub := by
  refine C52_violated env cfg murty prune resampled p cands fun i i' _ _ => ?_
  have h1 : max (inRange env p.map).length 1 = 1 := max_eq_right h
  have := i.2
  have := i'.2
  exact Fin.ext (by omega)

/-- **C52** fails whenever there are as many measurements as landmarks in range, and each landmark explains one measurement and no other does. -/
theorem C52_violated_unambiguous (env : Env Lm nZ) (cfg : Cfg) (murty : ∀ m, Mat ℝ m → List ((Fin m → Fin m) × ℝ)) (prune : List (Lm × ℝ) → List (Lm × ℝ)) (resampled : Bool)
    (p : Particle Lm) (cands : Nat → List (Cand Lm)) (hn : (inRange env p.map).length = nZ) (σ : Equiv.Perm (Fin nZ)) (L : Fin nZ → Fin nZ → ℝ)
    (hL : ∀ m : Fin (inRange env p.map).length, env.lik (inRange env p.map)[m].2.1 = some (L (m.cast hn)))
    (hhit : ∀ m, 0 < L m (σ m) ∧ cfg.minLL < Real.log (L m (σ m))) (hmiss : ∀ m z, z ≠ σ m → L m z = 0 ∨ Real.log (L m z) ≤ cfg.minLL) :
    updateMap env cfg murty prune resampled p cands = .error .ub := by
  refine C52_violated env cfg murty prune resampled p cands fun i i' hi _ => ?_
  exfalso
  have hmax : max (inRange env p.map).length nZ = nZ := by omega
  have hent : ∀ a b : Fin (max (inRange env p.map).length nZ), table env cfg (inRange env p.map) a b =
      if L (a.cast hmax) (b.cast hmax) = 0 then cfg.minLL else max cfg.minLL (Real.log (L (a.cast hmax) (b.cast hmax))) := by
    intro a b
    have ha : a.1 < (inRange env p.map).length := by have := a.2; omega
    have hb : b.1 < nZ := by have := b.2; omega
    unfold table tableEntry
    rw [List.getElem?_eq_getElem ha]
    simp only
    have := hL ⟨a, ha⟩
    simp only [Fin.getElem_fin] at this
    rw [this]
    simp only
    rw [dif_pos hb]
    rfl
  refine hi ((σ (i.cast hmax)).cast hmax.symm) ⟨?_, ?_, ?_⟩
  · rw [hent]
    simp only [Fin.cast_cast, Fin.cast_eq_self]
    rw [if_neg (hhit _).1.ne']
    exact lt_max_of_lt_right (hhit _).2
  · intro j' hj'
    rw [hent]
    have hne : j'.cast hmax ≠ σ (i.cast hmax) := fun e => hj' (by rw [← e]; rfl)
    split
    · exact le_rfl
    · next h0 =>
      rcases hmiss _ _ hne with h | h
      · exact absurd h h0
      · exact max_le le_rfl h
  · intro i' hi'
    rw [hent]
    have hne : ((σ (i.cast hmax)).cast hmax.symm).cast hmax ≠ σ (i'.cast hmax) := by
      intro e
      simp only [Fin.cast_cast, Fin.cast_eq_self] at e
      have := σ.injective e
      exact hi' (Fin.ext (by have := congrArg Fin.val this; simpa using this.symm))
    split
    · exact le_rfl
    · next h0 =>
      rcases hmiss _ _ hne with h | h
      · exact absurd h h0
      · exact max_le le_rfl h

theorem births_one (env : Env Lm nZ) (cfg : Cfg) (hc : cfg.countThr = 1) (nFov : Nat) (nw : ℝ) (l : List (Fin nZ)) : ∀ map : List (Lm × ℝ),
    l.foldlM (birthStep env cfg nFov nw) (map, []) = .ok (map ++ l.map fun z => (env.inv z, nw), []) := by
  induction l with
  | nil => intro map; simp; rfl
  | cons z l ih =>
    intro map
    have h1 : birthStep env cfg nFov nw (map, []) z = .ok (map ++ [(env.inv z, nw)], []) := by
      unfold birthStep place
      simp [support, hc, sweep, Except.map]
    rw [List.foldlM_cons, h1]
    show List.foldlM _ _ _ = _
    rw [ih]
    simp

theorem newWeight_ok {env : Env Lm nZ} {cfg : Cfg} (hok : Ok env cfg) : newWeight cfg = .ok (logit cfg.prior) := by
  unfold newWeight
  rw [addLogOdds_ok _ _ ⟨hok.p0, hok.p1⟩, zero_add]
  rfl

/-- **C52** (partial), with the default configuration of candidates (one supporting measurement suffices, so that candidate lists stay empty). For every
hypothesis there is a particle: its map is the scanned one (`Scanned`), pruned if the scan is long enough, with a new landmark for every measurement that
matches none. Missing: scans for which the reduction leaves no hypothesis (`C52_violated`). -/
theorem C52_update_partial (env : Env Lm nZ) (cfg : Cfg) (hok : Ok env cfg) (hc : cfg.countThr = 1) (murty : ∀ m, Mat ℝ m → List ((Fin m → Fin m) × ℝ))
    (prune : List (Lm × ℝ) → List (Lm × ℝ)) (resampled : Bool) (p : Particle Lm) (cands : Nat → List (Cand Lm)) (hcs : ∀ h, cands h = [])
    (das) (hd : hypotheses cfg nZ murty (table env cfg (inRange env p.map)) = .ok das) (hne : das ≠ []) :
    ∃ out, updateMap env cfg murty prune resampled p cands = .ok out ∧ out.length = das.length ∧
      ∀ (h : Nat) (da), das[h]? = some da → ∃ map' logW unused, Scanned env cfg p.map da map' logW unused ∧
        out[h]? = some (⟨p.w / das.length * Real.exp logW, (if cfg.pruneMeas ≤ nZ then prune map' else map') ++ unused.map fun z => (env.inv z, logit cfg.prior)⟩, []) := by
  have hpos : 0 < das.length := List.length_pos_iff.2 hne
  have hstep : ∀ (da) (w : ℝ), ∃ map' logW unused, Scanned env cfg p.map da map' logW unused ∧ hypUpdate env cfg prune (inRange env p.map) da ⟨w, p.map⟩ [] =
      .ok (⟨w * Real.exp logW, (if cfg.pruneMeas ≤ nZ then prune map' else map') ++ unused.map fun z => (env.inv z, logit cfg.prior)⟩, []) := by
    intro da w
    obtain ⟨s, h1, h2⟩ := lmLoop_scanned (da := da) hok
    refine ⟨s.map, s.logW, _, h2, ?_⟩
    unfold hypUpdate
    simp only
    rw [h1, bind_ok, newWeight_ok hok, bind_ok, births_one env cfg hc]
    rfl
  have hw : (if 1 < das.length then p.w / (das.length : ℝ) else p.w) = p.w / das.length := by
    split
    · rfl
    · have : das.length = 1 := by omega
      rw [this]; simp
  choose fm fl fu hf1 hf2 using hstep
  refine ⟨das.map fun da => (⟨p.w / das.length * Real.exp (fl da (p.w / das.length)), (if cfg.pruneMeas ≤ nZ then prune (fm da (p.w / das.length)) else fm da (p.w / das.length)) ++
    (fu da (p.w / das.length)).map fun z => (env.inv z, logit cfg.prior)⟩, []), ?_, by simp, ?_⟩
  · unfold updateMap
    rw [hd, bind_ok, if_neg (by omega), mapM_ok, List.forall₂_iff_get]
    refine ⟨by simp, fun i h1 h2 => ?_⟩
    simp only [List.get_eq_getElem, List.getElem_zipIdx, List.getElem_map, hcs, ite_self]
    rw [hw]
    exact hf2 _ _
  · intro h da hda
    refine ⟨_, _, _, hf1 da (p.w / das.length), ?_⟩
    rw [List.getElem?_map, hda]
    rfl

/-! ### C95 -/

theorem birthStep_map {env : Env Lm nZ} {cfg : Cfg} {nFov : Nat} {nw : ℝ} {s r : List (Lm × ℝ) × List (Cand Lm)} {z : Fin nZ}
    (h : birthStep env cfg nFov nw s z = .ok r) : ∃ born, r.1 = s.1 ++ born := by
  have hp : ∃ b, (place env cfg nFov nw s z).1 = s.1 ++ b := by
    unfold place
    split
    · exact ⟨[], by simp⟩
    · split
      · exact ⟨_, rfl⟩
      · exact ⟨[], by simp⟩
  obtain ⟨b, hb⟩ := hp
  unfold birthStep at h
  cases hsw : sweep cfg nFov nw (place env cfg nFov nw s z).2 with
  | error e => rw [hsw] at h; exact absurd h (by simp [Except.map])
  | ok x =>
    rw [hsw] at h
    simp only [Except.map, Except.ok.injEq] at h
    rw [← h]
    exact ⟨b ++ x.2, by rw [hb, List.append_assoc]⟩

theorem births_map {env : Env Lm nZ} {cfg : Cfg} {nFov : Nat} {nw : ℝ} (l : List (Fin nZ)) : ∀ {s r : List (Lm × ℝ) × List (Cand Lm)},
    l.foldlM (birthStep env cfg nFov nw) s = .ok r → ∃ born, r.1 = s.1 ++ born := by
  induction l with
  | nil => intro s r h; injection h with h; rw [h]; exact ⟨[], by simp⟩
  | cons z l ih =>
    intro s r h
    rw [List.foldlM_cons] at h
    cases hb : birthStep env cfg nFov nw s z with
    | error e => rw [hb] at h; exact absurd h (by simp [bind, Except.bind])
    | ok x =>
      rw [hb] at h
      obtain ⟨b1, e1⟩ := birthStep_map hb
      obtain ⟨b2, e2⟩ := ih (s := x) h
      exact ⟨b1 ++ b2, by rw [e2, e1, List.append_assoc]⟩

/-- **C95** (partial). Whenever `updateMap` completes, there is a particle for every hypothesis, the weight of the particle is split evenly and each share is
multiplied by the likelihood of the matched pairs of its hypothesis; the landmarks are those of the scan followed by new ones. Missing: `updateMap` need not
complete (`C52_violated`, `C96_violated`). -/
theorem C95_weights_partial (env : Env Lm nZ) (cfg : Cfg) (hok : Ok env cfg) (murty : ∀ m, Mat ℝ m → List ((Fin m → Fin m) × ℝ))
    (prune : List (Lm × ℝ) → List (Lm × ℝ)) (resampled : Bool) (p : Particle Lm) (cands : Nat → List (Cand Lm)) (out)
    (h : updateMap env cfg murty prune resampled p cands = .ok out) :
    ∃ das, hypotheses cfg nZ murty (table env cfg (inRange env p.map)) = .ok das ∧ das ≠ [] ∧ out.length = das.length ∧
      ∀ (h : Nat) (da), das[h]? = some da → ∃ map' logW unused born cs, Scanned env cfg p.map da map' logW unused ∧
        out[h]? = some (⟨p.w / das.length * Real.exp logW, (if cfg.pruneMeas ≤ nZ then prune map' else map') ++ born⟩, cs) := by
  unfold updateMap at h
  cases hd : hypotheses cfg nZ murty (table env cfg (inRange env p.map)) with
  | error e => rw [hd] at h; exact absurd h (by simp [Except.bind])
  | ok das =>
    rw [hd, bind_ok] at h
    by_cases h0 : das.length = 0
    · rw [if_pos h0] at h; exact absurd h (by simp)
    rw [if_neg h0, mapM_ok, List.forall₂_iff_get] at h
    obtain ⟨hl, h⟩ := h
    rw [List.length_zipIdx] at hl
    refine ⟨das, rfl, fun e => h0 (by rw [e]; rfl), hl.symm, fun i da hda => ?_⟩
    have hw : (if 1 < das.length then p.w / (das.length : ℝ) else p.w) = p.w / das.length := by
      split
      · rfl
      · have : das.length = 1 := by omega
        rw [this]; simp
    obtain ⟨hi, hda⟩ := List.getElem?_eq_some_iff.1 hda
    have hh := h i (by simpa using hi) (by omega)
    simp only [List.get_eq_getElem, List.getElem_zipIdx, hda, hw] at hh
    obtain ⟨s, h1, h2⟩ := lmLoop_scanned (da := da) hok
    unfold hypUpdate at hh
    simp only at hh
    rw [h1, bind_ok, newWeight_ok hok, bind_ok] at hh
    generalize (if 0 + i = 0 ∨ resampled = true then cands 0 else cands (0 + i)) = cs0 at hh
    cases hb : ((List.finRange nZ).filter fun z => !s.used z).foldlM (birthStep env cfg s.nFov (logit cfg.prior)) (if cfg.pruneMeas ≤ nZ then prune s.map else s.map, cs0) with
    | error e => rw [hb] at hh; exact absurd hh (by simp [Except.map])
    | ok x =>
      rw [hb] at hh
      simp only [Except.map, Except.ok.injEq] at hh
      obtain ⟨born, hborn⟩ := births_map _ hb
      refine ⟨s.map, s.logW, _, born, x.2, h2, ?_⟩
      rw [List.getElem?_eq_getElem (by omega), ← hh, hborn]

/-! ### C53 -/

/-- **C95** fails: for a scan with one measurement and at most one landmark in range there is no particle at all, `updateMap` leaves its array. -/
theorem C95_violated (env : Env Lm 1) (cfg : Cfg) (murty : ∀ m, Mat ℝ m → List ((Fin m → Fin m) × ℝ)) (prune : List (Lm × ℝ) → List (Lm × ℝ)) (resampled : Bool)
    (p : Particle Lm) (cands : Nat → List (Cand Lm)) (h : (inRange env p.map).length ≤ 1) : ¬ ∃ out, updateMap env cfg murty prune resampled p cands = .ok out := by
  rw [C52_violated_single env cfg murty prune resampled p cands h]
  simp

/-- Bayes' rule: probability of the hypothesis after an observation of probability `a` under it and `b` otherwise. -/
noncomputable def bayes (prior a b : ℝ) : ℝ := prior * a / (prior * a + (1 - prior) * b)

/-- **C53** (partial). The existence probability of a landmark that is updated is the one of Bayes' rule, lies between the prior and one; the one of a
landmark that is missed is that of Bayes' rule and lies between zero and the prior. Missing: a missed landmark whose weight is above the lock weight
(`C53_violated`); no clutter together with zero probability of detection (division of zero by zero). -/
theorem C53_existence_partial (cfg : Cfg) (pfa pd w : ℝ) (h0 : 0 < cfg.prior) (h1 : cfg.prior < 1) (hf0 : 0 ≤ pfa) (hf1 : pfa ≤ 1) (hp0 : 0 ≤ pd) (hp1 : pd ≤ 1)
    (hne : 0 < pfa ∨ 0 < pd) (hw : w ≤ cfg.lockW) :
    existence cfg pfa pd w true = bayes cfg.prior (pd + (1 - pd) * pfa) pfa ∧ cfg.prior ≤ existence cfg pfa pd w true ∧ existence cfg pfa pd w true ≤ 1 ∧
    existence cfg pfa pd w false = bayes cfg.prior (1 - pd) 1 ∧ 0 ≤ existence cfg pfa pd w false ∧ existence cfg pfa pd w false ≤ cfg.prior := by
  have hden : 0 < pfa + (1 - pfa) * pd * cfg.prior := by
    have ha : 0 ≤ (1 - pfa) * pd * cfg.prior := mul_nonneg (mul_nonneg (by linarith) hp0) h0.le
    rcases eq_or_lt_of_le hf0 with h | h
    · rw [← h]
      rcases hne with h' | h'
      · rw [← h] at h'; exact absurd h' (lt_irrefl _)
      · have := mul_pos h' h0; simpa using this
    · linarith
  have hd : 0 < (1 - cfg.prior) + (1 - pd) * cfg.prior := by nlinarith
  have e1 : existence cfg pfa pd w true = ((1 - pd) * pfa * cfg.prior + pd * cfg.prior) / (pfa + (1 - pfa) * pd * cfg.prior) := by
    unfold existence; rw [if_pos rfl]
  have e2 : existence cfg pfa pd w false = (1 - pd) * cfg.prior / ((1 - cfg.prior) + (1 - pd) * cfg.prior) := by
    unfold existence; rw [if_neg (by simp), if_neg (not_lt.2 hw)]
  have hpp : 0 ≤ pd * cfg.prior := mul_nonneg hp0 h0.le
  have h1pd : 0 ≤ (1 - pd) * cfg.prior := mul_nonneg (by linarith) h0.le
  refine ⟨?_, ?_, ?_, ?_, ?_, ?_⟩
  · rw [e1]; unfold bayes; congr 1 <;> ring
  · rw [e1, le_div_iff₀ hden]
    have : 0 ≤ pd * (1 - pfa) * (1 - cfg.prior) := mul_nonneg (mul_nonneg hp0 (by linarith)) (by linarith)
    nlinarith
  · rw [e1, div_le_one hden]
    nlinarith
  · rw [e2]; unfold bayes; congr 1 <;> ring
  · rw [e2]; exact div_nonneg h1pd hd.le
  · rw [e2, div_le_iff₀ hd]
    nlinarith

/-- **C53** fails for a missed landmark above the lock weight if the prior is below one half: the probability used is one half. -/
theorem C53_violated (cfg : Cfg) (pfa pd w : ℝ) (h : cfg.prior < 1 / 2) (hw : cfg.lockW < w) : cfg.prior < existence cfg pfa pd w false := by
  unfold existence
  rw [if_neg (by simp), if_pos hw]
  exact h

/-- A false alarm rate above one (more clutter expected than measurements received) turns the evidence around: an update lowers the probability. -/
theorem C53_violated_clutter (cfg : Cfg) (pfa pd w : ℝ) (h0 : 0 < cfg.prior) (h1 : cfg.prior < 1) (hf : 1 < pfa) (hp0 : 0 < pd) (hp1 : pd ≤ 1) :
    existence cfg pfa pd w true < cfg.prior := by
  have hpp : pd * cfg.prior < 1 := by nlinarith
  have hden : 0 < pfa + (1 - pfa) * pd * cfg.prior := by nlinarith [mul_pos hp0 h0]
  unfold existence
  rw [if_pos rfl, div_lt_iff₀ hden]
  have : 0 < pd * (pfa - 1) * (1 - cfg.prior) := mul_pos (mul_pos hp0 (by linarith)) (by linarith)
  nlinarith

/-- Prior, detection and clutter as in the examples of the repository. -/
example : ∃ cfg : Cfg, cfg.prior = 1 / 2 ∧ existence cfg (1 / 10) (9 / 10) 0 true = 91 / 101 :=
  ⟨⟨1 / 2, -10, 1, 3, 3, 1, 1, 2, 3, 0⟩, rfl, by unfold existence; rw [if_pos rfl]; norm_num⟩

/-! ### C94 -/

/-- **C94** (partial): with prior one half, the weight of a landmark in range is updated as the log-odds of its existence: by the logarithm of the ratio of the
probabilities of what was observed. Missing: other priors (`C94_violated`). -/
theorem C94_log_odds_partial (cfg : Cfg) (pfa pd w : ℝ) (hp : cfg.prior = 1 / 2) (hf : 0 < pfa) (hp0 : 0 ≤ pd) (hp1 : pd < 1) :
    addLogOdds w (existence cfg pfa pd w true) = .ok (w + Real.log ((pd + (1 - pd) * pfa) / pfa)) ∧
    (w ≤ cfg.lockW → addLogOdds w (existence cfg pfa pd w false) = .ok (w + Real.log (1 - pd))) ∧
    (cfg.lockW < w → addLogOdds w (existence cfg pfa pd w false) = .ok w) := by
  have h0 : 0 < cfg.prior := by rw [hp]; norm_num
  have h1 : cfg.prior < 1 := by rw [hp]; norm_num
  have hl : logit cfg.prior = 0 := by unfold logit; rw [hp]; norm_num
  refine ⟨?_, fun hw => ?_, fun hw => ?_⟩
  · rw [addLogOdds_ok _ _ (existence_hit cfg _ _ _ h0 h1 hf hp0 hp1.le), odds_hit cfg _ _ _ h0 h1 hf hp0 hp1.le, hl, zero_add]
    rfl
  · rw [addLogOdds_ok _ _ (existence_miss cfg _ _ _ h0 h1 hp0 hp1), odds_miss cfg _ _ _ h0 h1 hp1 hw, hl, zero_add]
    rfl
  · rw [addLogOdds_ok _ _ (existence_miss cfg _ _ _ h0 h1 hp0 hp1), odds_lock cfg _ _ _ hw, add_zero]

/-- **C94** fails for every other prior: the log-odds of the prior are added in every scan, so that the weight drifts without evidence. -/
theorem C94_violated (cfg : Cfg) (pfa pd w : ℝ) (h0 : 0 < cfg.prior) (h1 : cfg.prior < 1) (hp : cfg.prior ≠ 1 / 2) (hf : 0 < pfa) (hp0 : 0 ≤ pd) (hp1 : pd < 1) :
    addLogOdds w (existence cfg pfa pd w true) ≠ .ok (w + Real.log ((pd + (1 - pd) * pfa) / pfa)) ∧
    (w ≤ cfg.lockW → addLogOdds w (existence cfg pfa pd w false) ≠ .ok (w + Real.log (1 - pd))) := by
  have hl : logit cfg.prior ≠ 0 := by
    unfold logit
    have hpos : 0 < cfg.prior / (1 - cfg.prior) := div_pos h0 (by linarith)
    refine Real.log_ne_zero_of_pos_of_ne_one hpos fun e => hp ?_
    rw [div_eq_one_iff_eq (by linarith)] at e
    linarith
  refine ⟨fun h => ?_, fun hw h => ?_⟩
  · rw [addLogOdds_ok _ _ (existence_hit cfg _ _ _ h0 h1 hf hp0 hp1.le), odds_hit cfg _ _ _ h0 h1 hf hp0 hp1.le] at h
    injection h with h
    unfold evHit at h
    exact hl (by linarith)
  · rw [addLogOdds_ok _ _ (existence_miss cfg _ _ _ h0 h1 hp0 hp1), odds_miss cfg _ _ _ h0 h1 hp1 hw] at h
    injection h with h
    unfold evMiss at h
    exact hl (by linarith)

/-- Prior 1/2, a false alarm probability of 1/10 and a detection probability of 9/10. -/
example : ∃ cfg : Cfg, addLogOdds 0 (existence cfg (1 / 10) (9 / 10) 0 true) = .ok (0 + Real.log ((9 / 10 + (1 - 9 / 10) * (1 / 10)) / (1 / 10))) :=
  ⟨⟨1 / 2, -10, 1, 3, 3, 1, 1, 2, 3, 0⟩, (C94_log_odds_partial _ (1 / 10) (9 / 10) 0 rfl (by norm_num) (by norm_num) (by norm_num)).1⟩

/-! ### C96 -/

/-- Candidate after one more check. -/
def checked (c : Cand Lm) : Cand Lm := ⟨c.lm, c.n, c.checks + 1⟩

/-- A candidate has enough support, or few landmarks are in view. -/
def Born (cfg : Cfg) (nFov : Nat) (c : Cand Lm) : Prop := cfg.countThr ≤ c.n ∨ nFov ≤ cfg.curThr

/-- A candidate becomes a landmark or has been checked too often. -/
def Leaves (cfg : Cfg) (nFov : Nat) (c : Cand Lm) : Prop := Born cfg nFov c ∨ cfg.checkThr < c.checks

theorem leaves_iff (cfg : Cfg) (nFov : Nat) (c : Cand Lm) : leaves cfg nFov c = true ↔ Leaves cfg nFov c := by
  unfold leaves Leaves Born
  simp only [Bool.or_eq_true, decide_eq_true_eq]
  tauto

theorem promoted_iff (cfg : Cfg) (nFov : Nat) (c : Cand Lm) : promoted cfg nFov c = true ↔ Born cfg nFov c := by
  unfold promoted Born
  simp only [Bool.or_eq_true, decide_eq_true_eq]

open Classical in
/-- **C96** (partial): the check of the candidate list, if its last candidate stays. Every candidate is checked once more; those that have enough support (or all,
if few landmarks are in view) become landmarks, those checked too often are dropped, the others stay, in order. Missing: the last candidate leaves. -/
theorem C96_candidates_partial (cfg : Cfg) (nFov : Nat) (nw : ℝ) (cs : List (Cand Lm)) (hlast : ∀ c ∈ cs.getLast?, ¬ Leaves cfg nFov (checked c)) :
    sweep cfg nFov nw cs = .ok ((cs.map checked).filter fun c => decide (¬ Leaves cfg nFov c),
      ((cs.map checked).filter fun c => decide (Born cfg nFov c)).map fun c => (c.lm, nw * c.checks)) := by
  induction cs with
  | nil => rfl
  | cons c cs ih =>
    unfold sweep
    simp only
    by_cases hl : leaves cfg nFov ({ c with checks := c.checks + 1 } : Cand Lm) = true
    · rw [if_pos hl]
      have hl' : Leaves cfg nFov (checked c) := (leaves_iff _ _ _).1 hl
      cases cs with
      | nil => exact absurd hl' (hlast c (by simp))
      | cons d ds =>
        simp only
        rw [ih (fun x hx => hlast x (by simpa using hx))]
        simp only [Except.map, Except.ok.injEq, Prod.mk.injEq]
        constructor
        · rw [List.map_cons (a := c), List.filter_cons_of_neg (by simpa using hl')]
        · rw [List.map_cons (a := c), List.filter_cons]
          by_cases hb : Born cfg nFov (checked c)
          · rw [if_pos (show promoted cfg nFov ({ c with checks := c.checks + 1 } : Cand Lm) = true from (promoted_iff _ _ _).2 hb), if_pos (by simpa using hb)]
            rfl
          · rw [if_neg (show ¬ promoted cfg nFov ({ c with checks := c.checks + 1 } : Cand Lm) = true from fun h => hb ((promoted_iff _ _ _).1 h)),
              if_neg (by simpa using hb)]
    · rw [if_neg hl]
      have hl' : ¬ Leaves cfg nFov (checked c) := fun h => hl ((leaves_iff _ _ _).2 h)
      rw [ih (fun x hx => hlast x (by
        cases cs with
        | nil => simp at hx
        | cons d ds => simpa using hx))]
      simp only [Except.map, Except.ok.injEq, Prod.mk.injEq]
      constructor
      · rw [List.map_cons, List.filter_cons_of_pos (by simpa using hl')]
        rfl
      · rw [List.map_cons, List.filter_cons_of_neg (by simpa using fun h => hl' (Or.inl h))]

/-- **C96** fails whenever the last candidate leaves: the iterator is incremented past the end of the list. -/
theorem C96_violated (cfg : Cfg) (nFov : Nat) (nw : ℝ) (cs : List (Cand Lm)) (c : Cand Lm) (h : Leaves cfg nFov (checked c)) :
    sweep cfg nFov nw (cs ++ [c]) = .error .ub := by
  induction cs with
  | nil =>
    unfold sweep
    simp only [List.nil_append]
    rw [if_pos (show leaves cfg nFov ({ c with checks := c.checks + 1 } : Cand Lm) = true from (leaves_iff _ _ _).2 h)]
  | cons d cs ih =>
    rw [List.cons_append]
    unfold sweep
    simp only
    rw [ih]
    cases hcs : cs ++ [c] with
    | nil => simp at hcs
    | cons _ _ =>
      simp only
      split <;> rfl

example : (⟨1 / 2, -10, 1, 3, 3, 2, 1, 2, 3, 0⟩ : Cfg).countThr = 2 ∧ Leaves (⟨1 / 2, -10, 1, 3, 3, 2, 1, 2, 3, 0⟩ : Cfg) 5 (checked ⟨(), 2, 1⟩) ∧
    ¬ Leaves (⟨1 / 2, -10, 1, 3, 3, 2, 1, 2, 3, 0⟩ : Cfg) 5 (checked ⟨(), 1, 1⟩) := by
  simp [Leaves, Born, checked]

/-! ### C97 -/

/-- **C97** (partial): after a resampling, every particle made of a hypothesis starts with the landmark candidates of the particle it copies. Missing: scans not
preceded by a resampling (`C97_violated`). -/
theorem C97_copy_candidates_partial (env : Env Lm nZ) (cfg : Cfg) (murty : ∀ m, Mat ℝ m → List ((Fin m → Fin m) × ℝ)) (prune : List (Lm × ℝ) → List (Lm × ℝ))
    (p : Particle Lm) (cands : Nat → List (Cand Lm)) (resampled : Bool) :
    updateMap env cfg murty prune true p cands = updateMap env cfg murty prune resampled p fun _ => cands 0 := by
  unfold updateMap
  simp only [or_true, if_true, ite_self]

theorem cands_kept (env : Env Lm nZ) (cfg : Cfg) (hok : Ok env cfg) (murty : ∀ m, Mat ℝ m → List ((Fin m → Fin m) × ℝ)) (prune : List (Lm × ℝ) → List (Lm × ℝ))
    (resampled : Bool) (p : Particle Lm) (cands : Nat → List (Cand Lm)) (das) (hd : hypotheses cfg nZ murty (table env cfg (inRange env p.map)) = .ok das) (hne : das ≠ [])
    (hall : ∀ da ∈ das, ∀ z, ∃ m lm' c, Matched env cfg _ da m z lm' c) :
    ∃ out, updateMap env cfg murty prune resampled p cands = .ok out ∧
      out.map Prod.snd = (List.range das.length).map fun h => if h = 0 ∨ resampled = true then cands 0 else cands h := by
  have hpos : 0 < das.length := List.length_pos_iff.2 hne
  have hstep : ∀ da w cs, ∃ q : Particle Lm, da ∈ das → hypUpdate env cfg prune (inRange env p.map) da ⟨w, p.map⟩ cs = .ok (q, cs) := by
    intro da w cs
    obtain ⟨s, h1, h2⟩ := lmLoop_scanned (da := da) hok
    refine ⟨⟨w * Real.exp s.logW, if cfg.pruneMeas ≤ nZ then prune s.map else s.map⟩, fun hmem => ?_⟩
    have h3 : ((List.finRange nZ).filter fun z => !s.used z) = [] := by
      rw [List.eq_nil_iff_forall_not_mem]
      intro z hz
      obtain ⟨m, lm', c, hM⟩ := hall da hmem z
      exact (h2.unused.2 z).1 hz m lm' c hM
    unfold hypUpdate
    simp only
    rw [h1, bind_ok, newWeight_ok hok, bind_ok, h3]
    rfl
  choose f hf using hstep
  refine ⟨das.zipIdx.map fun x => (f x.1 (if 1 < das.length then p.w / das.length else p.w) (if x.2 = 0 ∨ resampled = true then cands 0 else cands x.2),
    if x.2 = 0 ∨ resampled = true then cands 0 else cands x.2), ?_, ?_⟩
  · unfold updateMap
    rw [hd, bind_ok, if_neg (by omega), mapM_ok, List.forall₂_iff_get]
    refine ⟨by simp, fun i h1 h2 => ?_⟩
    simp only [List.get_eq_getElem, List.getElem_map]
    exact hf _ _ _ (by simp)
  · rw [List.map_map]
    have : (List.range das.length) = das.zipIdx.map Prod.snd := by rw [List.zipIdx_map_snd, List.range_eq_range']
    rw [this, List.map_map]
    rfl

/-- Two landmarks that both explain both measurements. -/
noncomputable def twoEnv : Env Unit 2 := ⟨fun _ => 1 / 2, fun _ => false, fun _ => some fun _ => 1, fun _ l => some l, 1, fun _ => (), fun _ _ => 100, fun _ l => l⟩

/-- Up to two hypotheses; candidates need `k` supporting measurements. -/
noncomputable def twoCfg (k : Nat) : Cfg := ⟨1 / 2, -1, 2, 1, 3, k, 0, 5, 100, 100⟩

/-- The two assignments of a table of equal entries. -/
def twoMurty : ∀ m, Mat ℝ m → List ((Fin m → Fin m) × ℝ) := fun _ _ => [(id, 0), (Fin.rev, 0)]

theorem two_ok (k : Nat) : Ok twoEnv (twoCfg k) := ⟨by simp [twoCfg], by norm_num [twoCfg], by intro _; norm_num [twoEnv], by intro _; norm_num [twoEnv], by norm_num [twoEnv]⟩

theorem two_hyp (k : Nat) (p : Particle Unit) (hp : p.map.length = 2) : ∃ das, hypotheses (twoCfg k) 2 twoMurty (table twoEnv (twoCfg k) (inRange twoEnv p.map)) = .ok das ∧ das.length = 2 ∧
    ∀ da ∈ das, ∀ z, ∃ m lm' c, Matched twoEnv (twoCfg k) (inRange twoEnv p.map) da m z lm' c := by
  have hn : (inRange twoEnv p.map).length = 2 := by
    have : inRange twoEnv p.map = p.map.zipIdx.map fun x => (x.2, x.1.1, 1 / 2) := by
      unfold inRange
      rw [← List.filterMap_eq_map]
      refine List.filterMap_congr fun x _ => ?_
      rw [if_pos (Or.inl (by norm_num [twoEnv]))]
      rfl
    rw [this]; simpa using hp
  have hT : ∀ i j, table twoEnv (twoCfg k) (inRange twoEnv p.map) i j = 0 := by
    intro i j
    have hi : i.1 < (inRange twoEnv p.map).length := by have := i.2; omega
    have hj : j.1 < 2 := by have := j.2; omega
    unfold table tableEntry
    rw [List.getElem?_eq_getElem hi]
    simp only [twoEnv, dif_pos hj, twoCfg]
    norm_num
  have hopen : 2 ≤ (openRows (table twoEnv (twoCfg k) (inRange twoEnv p.map)) (twoCfg k).minLL).length := by
    by_contra hc
    have h1 := (openRows_length _ _).1 (show (openRows (table twoEnv (twoCfg k) (inRange twoEnv p.map)) (twoCfg k).minLL).length ≤ 1 by omega)
    have hmax : max (inRange twoEnv p.map).length 2 = 2 := by omega
    have hnd : ∀ i j, ¬ Determined (table twoEnv (twoCfg k) (inRange twoEnv p.map)) (twoCfg k).minLL i j := by
      intro i j hd
      have : ∃ j' : Fin (max (inRange twoEnv p.map).length 2), j' ≠ j := by
        by_cases hj : j.1 = 0
        · exact ⟨⟨1, by omega⟩, fun e => by rw [← e] at hj; simp at hj⟩
        · exact ⟨⟨0, by omega⟩, fun e => hj (by rw [← e])⟩
      obtain ⟨j', hj'⟩ := this
      have := hd.2.1 j' hj'
      rw [hT] at this
      norm_num [twoCfg] at this
    have := h1 ⟨0, by omega⟩ ⟨1, by omega⟩ (hnd _) (hnd _)
    simp at this
  obtain ⟨Cr, score, ext, h1, h2, _⟩ := (hypotheses_spec (nZ := 2) (twoCfg k) twoMurty (table twoEnv (twoCfg k) (inRange twoEnv p.map)) fun i j => tableEntry_ge twoEnv (twoCfg k) _ i j).2 hopen
  have hkept : ∀ (m : Nat) (C : Mat ℝ m), kept (twoCfg k) (twoMurty m C) = [id, Fin.rev] := by
    intro m C
    simp [kept, twoMurty, twoCfg]
  rw [hkept] at h1
  refine ⟨_, h1, rfl, ?_⟩
  · intro da hda
    rw [List.mem_map] at hda
    obtain ⟨τ, hτ, rfl⟩ := hda
    have hb : Function.Bijective τ := by
      have : τ = id ∨ τ = Fin.rev := by simpa only [List.mem_cons, List.not_mem_nil, or_false] using hτ
      rcases this with rfl | rfl
      · exact Function.bijective_id
      · exact Fin.rev_bijective
    obtain ⟨s, s1, s2, _⟩ := h2 τ hb
    intro z
    obtain ⟨i, hi⟩ := s1.2 ⟨z, by have := z.2; omega⟩
    refine ⟨⟨i, by have := i.2; omega⟩, (), 0, ?_, ⟨fun _ => 1, rfl, one_ne_zero, by simp, by norm_num [twoCfg]⟩, rfl⟩
    rw [s2]
    unfold ofPerm
    have hi' : s ⟨i.1, i.2⟩ = ⟨z, by have := z.2; omega⟩ := hi
    simp only [Fin.eta, hi]
    rw [dif_pos z.2]

/-- **C97** fails without a resampling: of the two particles made of a particle with a candidate, the second has none (it has those left at its index by an
earlier particle, here none). -/
theorem C97_violated : ∃ (p : Particle Unit) (cands : Nat → List (Cand Unit)) (out : List (Particle Unit × List (Cand Unit))),
    updateMap twoEnv (twoCfg 3) twoMurty id false p cands = .ok out ∧ out.map Prod.snd = [cands 0, []] ∧ cands 0 ≠ [] := by
  obtain ⟨das, h1, h2, h3⟩ := two_hyp 3 ⟨1, [((), 0), ((), 0)]⟩ rfl
  obtain ⟨out, h4, h5⟩ := cands_kept twoEnv (twoCfg 3) (two_ok 3) twoMurty id false ⟨1, [((), 0), ((), 0)]⟩ (fun h => if h = 0 then [⟨(), 1, 0⟩] else []) das h1
    (fun e => by rw [e] at h2; simp at h2) h3
  refine ⟨_, _, out, h4, ?_, by simp⟩
  rw [h5, h2]
  simp [List.range_succ]

/-- The hypotheses of `C95_weights_partial` can be met: two particles result. -/
example : ∃ out, updateMap twoEnv (twoCfg 3) twoMurty id true ⟨1, [((), 0), ((), 0)]⟩ (fun _ => []) = .ok out ∧ out.length = 2 := by
  obtain ⟨das, h1, h2, h3⟩ := two_hyp 3 ⟨1, [((), 0), ((), 0)]⟩ rfl
  obtain ⟨out, h4, h5⟩ := cands_kept twoEnv (twoCfg 3) (two_ok 3) twoMurty id true ⟨1, [((), 0), ((), 0)]⟩ (fun _ => []) das h1
    (fun e => by rw [e] at h2; simp at h2) h3
  refine ⟨out, h4, ?_⟩
  have := congrArg List.length h5
  simpa [h2] using this

/-- The hypotheses of `C52_update_partial` can be met. -/
example : ∃ das, hypotheses (twoCfg 1) 2 twoMurty (table twoEnv (twoCfg 1) (inRange twoEnv [((), 0), ((), 0)])) = .ok das ∧ das ≠ [] ∧ (twoCfg 1).countThr = 1 ∧
    Ok twoEnv (twoCfg 1) := by
  obtain ⟨das, h1, h2, h3⟩ := two_hyp 1 ⟨1, [((), 0), ((), 0)]⟩ rfl
  exact ⟨das, h1, fun e => by rw [e] at h2; simp at h2, rfl, two_ok 1⟩

/-! ### C98 -/

theorem move_list {α : Type} (orig : List α) (stable : Nat → Prop) : ∀ (l : List (Nat × Nat)) (cur : List α), cur.length = orig.length → (l.map Prod.snd).Nodup →
    (∀ x ∈ l, x.1 < orig.length ∧ x.2 < orig.length ∧ stable x.1) → (∀ x ∈ l, stable x.2 → x.1 = x.2) → (∀ j, stable j → cur[j]? = orig[j]?) →
    ∃ cs, l.foldlM (fun cs x => if x.1 = x.2 then some cs else (cs[x.1]?).bind fun c => if x.2 < cs.length then some (cs.set x.2 c) else none) cur = some cs ∧
      cs.length = orig.length ∧ (∀ x ∈ l, cs[x.2]? = orig[x.1]?) ∧ ∀ i, i ∉ l.map Prod.snd → cs[i]? = cur[i]? := by
  intro l
  induction l with
  | nil => intro cur hl _ _ _ _; exact ⟨cur, rfl, hl, by simp, fun _ _ => rfl⟩
  | cons x l ih =>
    intro cur hl hnd h1 h2 h3
    rw [List.map_cons, List.nodup_cons] at hnd
    obtain ⟨a1, a2, a3⟩ := h1 x (by simp)
    have hkey : ∃ cur', (if x.1 = x.2 then some cur else (cur[x.1]?).bind fun c => if x.2 < cur.length then some (cur.set x.2 c) else none) = some cur' ∧
        cur'.length = orig.length ∧ cur'[x.2]? = orig[x.1]? ∧ ∀ i, i ≠ x.2 → cur'[i]? = cur[i]? := by
      by_cases he : x.1 = x.2
      · exact ⟨cur, if_pos he, hl, by rw [← he]; exact h3 _ a3, fun _ _ => rfl⟩
      · refine ⟨cur.set x.2 orig[x.1], ?_, by simpa using hl, ?_, fun i hi => List.getElem?_set_ne (Ne.symm hi)⟩
        · rw [if_neg he, h3 _ a3, List.getElem?_eq_getElem a1, Option.bind_some, if_pos (by omega)]
        · rw [List.getElem?_set_self (by omega), List.getElem?_eq_getElem a1]
    obtain ⟨cur', k1, k2, k3, k4⟩ := hkey
    obtain ⟨cs, c1, c2, c3, c4⟩ := ih cur' k2 hnd.2 (fun y hy => h1 y (by simp [hy])) (fun y hy => h2 y (by simp [hy])) (fun j hj => by
      by_cases hji : j = x.2
      · subst hji
        rw [k3, h2 x (by simp) hj]
      · rw [k4 j hji, h3 j hj])
    refine ⟨cs, ?_, c2, ?_, ?_⟩
    · rw [List.foldlM_cons, k1]; exact c1
    · intro y hy
      rcases List.mem_cons.1 hy with rfl | hy
      · rw [c4 _ hnd.1, k3]
      · exact c3 y hy
    · intro i hi
      rw [List.map_cons, List.mem_cons, not_or] at hi
      rw [c4 i hi.2, k4 i hi.1]

/-- **C98** (partial): in the first resampling of a filter, to which no particles were added after construction, every surviving particle gets the candidate list
of the particle it is a copy of (`src` lists the source index of every slot, as in C30). Missing: later resamplings (`C98_violated`). -/
theorem C98_candidates_follow_partial {S K α : Type} [Field K] [LinearOrder K] [IsStrictOrderedRing K] (P : List (PF.Part S K)) (h : PFProps.Hist False False P) (hpos : 0 < (P.map PF.Part.w).sum) (n : Nat) (force : Bool)
    (t tp u : K) (hu0 : 0 ≤ u) (hu1 : u < 1) (hdo : force = true ∨ ¬ PF.enough (PF.normalizeWeights P) t tp) (cands : List α) (hc : P.length ≤ cands.length) :
    ∃ (P' : List (PF.Part S K)) (L src : List Nat) (cands' : List α), PF.resample P n force t tp u = some (true, P') ∧ PF.sample ((PF.normalizeWeights P).map PF.Part.w) (PFProps.target P.length n) u = some L ∧
      src.Perm L ∧ moveCands (P'.map PF.Part.parent) cands = some cands' ∧
      ∀ (s : Nat) (p : PF.Part S K), P'[s]? = some p → ∃ (j : Nat) (q : PF.Part S K), src[s]? = some j ∧ P[j]? = some q ∧ p.st = q.st ∧ cands'[s]? = cands[j]? := by
  obtain ⟨P', L, src, e1, e2, e3, sp, pl, _, _, hk, hsl⟩ := PFProps.C30_resample P hpos n force t tp u hu0 hu1 hdo
  have hpar : ∀ (s : Nat) (p : PF.Part S K), P'[s]? = some p → src[s]? = some p.parent ∧ ∃ q, P[p.parent]? = some q ∧ p.st = q.st := by
    intro s p hp
    obtain ⟨j, q, j1, j2, j3, j4⟩ := hsl s p hp
    have := PFProps.ids_eq_index P h j q j2
    rw [j4, this]
    exact ⟨j1, q, j2, j3⟩
  have hle : PFProps.target P.length n ≤ P.length := by unfold PFProps.target; split <;> omega
  have hmem : ∀ x, x ∈ (P'.map PF.Part.parent).zipIdx → ∃ p, P'[x.2]? = some p ∧ p.parent = x.1 := by
    intro x hx
    rw [List.mem_zipIdx_iff_getElem?, List.getElem?_map] at hx
    cases hq : P'[x.2]? with
    | none => rw [hq] at hx; exact absurd hx (by simp)
    | some p =>
      rw [hq, Option.map_some, Option.some.injEq] at hx
      exact ⟨p, rfl, hx⟩
  obtain ⟨cs, c1, c2, c3, c4⟩ := move_list cands (fun j => src[j]? = some j ∨ PFProps.target P.length n ≤ j) (P'.map PF.Part.parent).zipIdx cands rfl
    (by rw [List.zipIdx_map_snd]; exact List.nodup_range') (by
      intro x hx
      obtain ⟨p, hp, hpx⟩ := hmem x hx
      obtain ⟨h1, q, h2, _⟩ := hpar x.2 p hp
      have hlt := (List.getElem?_eq_some_iff.1 h2).1
      have hlt2 := (List.getElem?_eq_some_iff.1 hp).1
      rw [hpx] at h1 hlt
      refine ⟨by omega, by omega, ?_⟩
      by_cases hj : x.1 < PFProps.target P.length n
      · exact Or.inl (hk x.1 (sp.subset (List.mem_of_getElem? h1)) hj)
      · exact Or.inr (by omega)) (by
      intro x hx hs
      obtain ⟨p, hp, hpx⟩ := hmem x hx
      have hlt2 := (List.getElem?_eq_some_iff.1 hp).1
      have h1 := (hpar x.2 p hp).1
      rcases hs with hs | hs
      · rw [hs, hpx, Option.some.injEq] at h1
        exact h1.symm
      · omega) (fun _ _ => rfl)
  refine ⟨P', L, src, cs, e1, e2, sp, c1, fun s p hp => ?_⟩
  obtain ⟨h1, q, h2, h3⟩ := hpar s p hp
  refine ⟨p.parent, q, h1, h2, h3, ?_⟩
  exact c3 (p.parent, s) (by rw [List.mem_zipIdx_iff_getElem?, List.getElem?_map, hp]; rfl)

/-- **C98** fails in the second resampling: both particles are copies of particle 0, whose candidate list is `A`, but both get that of particle 1. -/
theorem C98_violated : ∃ P P' : List (PF.Part Nat Rat), PFProps.Hist False True P ∧ PF.resample P 0 true 0 0 (1 / 2) = some (true, P') ∧
    PF.sample ((PF.normalizeWeights P).map PF.Part.w) 2 (1 / 2) = some [0, 0] ∧ moveCands (P'.map PF.Part.parent) ["A", "B"] = some ["B", "B"] := by
  have h0 : PFProps.Hist False True PFProps.two := PFProps.Hist.ctor 2 0
  have h1 := PFProps.Hist.change PFProps.two (fun i => i) (fun i => i) h0
  have h3 : PFProps.Hist False True ([⟨1, 1, 1, 1⟩, ⟨1, 1, 1, 1⟩] : List (PF.Part Nat Rat)) :=
    PFProps.Hist.resample _ _ 0 true 0 0 (1/2) h1 trivial (by decide +kernel)
  have h4 := PFProps.Hist.change _ (fun i => 10 + i) (fun i => if i = 0 then 1 else 0) h3
  exact ⟨_, [⟨10, 1, 1, 1⟩, ⟨10, 1, 1, 1⟩], h4, by decide +kernel, by decide +kernel, by decide +kernel⟩

/-- Two particles with a candidate list each meet the hypotheses. -/
example : PFProps.Hist False False ([⟨10, 0, 0, 1⟩, ⟨20, 1, 1, 3⟩] : List (PF.Part Nat Rat)) ∧ 0 < (([⟨10, 0, 0, 1⟩, ⟨20, 1, 1, 3⟩] : List (PF.Part Nat Rat)).map PF.Part.w).sum ∧
    ([⟨10, 0, 0, 1⟩, ⟨20, 1, 1, 3⟩] : List (PF.Part Nat Rat)).length ≤ ["A", "B"].length :=
  ⟨PFProps.Hist.change _ (fun i => if i = 0 then 10 else 20) (fun i => if i = 0 then 1 else 3) (PFProps.Hist.ctor 2 0), by norm_num, le_rfl⟩

/-! ### C99 -/

/-- What is assumed of Murty's algorithm (C13-C15): the assignments are permutations, with their scores, and the first is the best. -/
def Ranks (murty : ∀ m, Mat ℝ m → List ((Fin m → Fin m) × ℝ)) : Prop := ∀ m (C : Mat ℝ m),
  (∀ x ∈ murty m C, Function.Bijective x.1 ∧ x.2 = ∑ i, C i (x.1 i)) ∧ ∀ x ∈ (murty m C).head?, ∀ τ : Fin m → Fin m, Function.Bijective τ → ∑ i, C i (τ i) ≤ x.2

/-- Total log-likelihood of the assignment `s` of the padded table. -/
noncomputable def total (env : Env Lm nZ) (cfg : Cfg) (map : List (Lm × ℝ)) (s : Fin (max (inRange env map).length nZ) → Fin (max (inRange env map).length nZ)) : ℝ :=
  ∑ i, table env cfg (inRange env map) i (s i)

/-- **C99**: the hypotheses of a scan. There are at most `maxHyp`; each is a one-to-one association (a measurement goes to at most one landmark), read off a
permutation of the table padded to a square; the first has the largest total log-likelihood of all, and the others are less than `maxDiff` below it. -/
theorem C99_hypotheses (env : Env Lm nZ) (cfg : Cfg) (murty : ∀ m, Mat ℝ m → List ((Fin m → Fin m) × ℝ)) (hm : Ranks murty) (map : List (Lm × ℝ)) (das)
    (hd : hypotheses cfg nZ murty (table env cfg (inRange env map)) = .ok das) :
    das.length ≤ cfg.maxHyp ∧ (∀ da ∈ das, ∀ i i' z, da i = some z → da i' = some z → i = i') ∧
    ∃ ss : List (Fin (max (inRange env map).length nZ) → Fin (max (inRange env map).length nZ)), das = ss.map ofPerm ∧ (∀ s ∈ ss, Function.Bijective s) ∧
      ∀ s ∈ ss.head?, (∀ σ, Function.Bijective σ → total env cfg map σ ≤ total env cfg map s) ∧ ∀ s' ∈ ss, total env cfg map s - total env cfg map s' < cfg.maxDiff := by
  classical
  obtain ⟨hA, hB⟩ := hypotheses_spec (nZ := nZ) cfg murty (table env cfg (inRange env map)) fun i j => tableEntry_ge env cfg _ i j
  by_cases hlen : (openRows (table env cfg (inRange env map)) cfg.minLL).length ≤ 1
  · rw [hA hlen] at hd
    injection hd with hd
    subst hd
    exact ⟨by simp, by simp, [], by simp⟩
  · obtain ⟨Cr, score, ext, h1, h2, h3⟩ := hB (by omega)
    generalize hmm : (openRows (table env cfg (inRange env map)) cfg.minLL).length = mm at Cr ext h1 h2 h3
    rw [h1] at hd
    injection hd with hd
    obtain ⟨r1, r2⟩ := hm mm Cr
    have hkept : ∀ τ ∈ kept cfg (murty mm Cr), ∃ x ∈ murty mm Cr, x.1 = τ ∧ ∀ b ∈ (murty mm Cr).head?, b.2 - x.2 < cfg.maxDiff := by
      intro τ hτ
      unfold kept at hτ
      rcases hl : murty mm Cr with _ | ⟨b, l⟩
      · rw [hl] at hτ; exact absurd hτ (by simp)
      · rw [hl] at hτ
        simp only [List.mem_map] at hτ
        obtain ⟨x, hx, rfl⟩ := hτ
        have hp := List.mem_takeWhile_imp hx
        rw [decide_eq_true_eq] at hp
        refine ⟨x, ?_, rfl, ?_⟩
        · exact List.mem_of_mem_take ((List.takeWhile_sublist _).subset hx)
        · intro b' hb'
          simp only [List.head?_cons, Option.mem_def, Option.some.injEq] at hb'
          rw [← hb']
          exact hp
    have hbij : ∀ τ ∈ kept cfg (murty mm Cr), Function.Bijective τ := by
      intro τ hτ
      obtain ⟨x, hx, rfl, _⟩ := hkept τ hτ
      exact (r1 x hx).1
    have hex : ∀ τ : Fin mm → Fin mm, ∃ s : Fin (max (inRange env map).length nZ) → Fin (max (inRange env map).length nZ), Function.Bijective τ →
        Function.Bijective s ∧ ext τ = ofPerm s ∧ total env cfg map s = score + ∑ a, Cr a (τ a) := by
      intro τ
      by_cases hτ : Function.Bijective τ
      · obtain ⟨s, s1, s2, s3⟩ := h2 τ hτ
        exact ⟨s, fun _ => ⟨s1, s2, s3⟩⟩
      · exact ⟨id, fun h => absurd h hτ⟩
    choose f hf using hex
    have hdas : das = ((kept cfg (murty mm Cr)).map f).map ofPerm := by
      rw [← hd, List.map_map]
      exact List.map_congr_left fun τ hτ => (hf τ (hbij τ hτ)).2.1
    refine ⟨?_, ?_, (kept cfg (murty mm Cr)).map f, hdas, ?_, ?_⟩
    · rw [← hd, List.length_map]
      unfold kept
      split
      · simp
      · rw [List.length_map]
        refine (List.takeWhile_sublist _).length_le.trans ?_
        rw [List.length_take]
        exact min_le_left _ _
    · intro da hda i i' z hi hi'
      rw [hdas, List.mem_map] at hda
      obtain ⟨s, hs, rfl⟩ := hda
      rw [List.mem_map] at hs
      obtain ⟨τ, hτ, rfl⟩ := hs
      have hb := (hf τ (hbij τ hτ)).1
      unfold ofPerm at hi hi'
      split at hi
      · split at hi'
        · rw [Option.some.injEq] at hi hi'
          refine hb.1 (Fin.ext ?_)
          have e1 := congrArg Fin.val hi
          have e2 := congrArg Fin.val hi'
          simp only at e1 e2
          omega
        · exact absurd hi' (by simp)
      · exact absurd hi (by simp)
    · intro s hs
      rw [List.mem_map] at hs
      obtain ⟨τ, hτ, rfl⟩ := hs
      exact (hf τ (hbij τ hτ)).1
    · intro s hs
      rw [List.head?_map] at hs
      rcases hk : kept cfg (murty mm Cr) with _ | ⟨τ, ks⟩
      · rw [hk] at hs; exact absurd hs (by simp)
      rw [hk] at hs
      simp only [List.head?_cons, Option.map_some, Option.mem_def, Option.some.injEq] at hs
      subst hs
      have hτ : τ ∈ kept cfg (murty mm Cr) := by rw [hk]; simp
      obtain ⟨_, _, ht⟩ := hf τ (hbij τ hτ)
      have hhead : ∃ b ∈ (murty mm Cr).head?, b.1 = τ := by
        unfold kept at hk
        rcases hl : murty mm Cr with _ | ⟨b, l⟩
        · rw [hl] at hk; exact absurd hk (by simp)
        · rw [hl] at hk
          simp only at hk
          refine ⟨b, by simp, ?_⟩
          rcases hmx : cfg.maxHyp with _ | k
          · rw [hmx] at hk; simp at hk
          · rw [hmx, List.take_succ_cons, List.takeWhile_cons] at hk
            split at hk
            · rw [List.map_cons] at hk
              exact (List.cons.inj hk).1
            · exact absurd hk (by simp)
      obtain ⟨b, hb, hbτ⟩ := hhead
      have hb2 : b.2 = ∑ a, Cr a (τ a) := by
        rw [← hbτ]
        exact (r1 b (List.mem_of_mem_head? hb)).2
      refine ⟨fun σ hσ => ?_, fun s' hs' => ?_⟩
      · obtain ⟨τ', t1, t2⟩ := h3 σ hσ
        rw [ht, ← hb2]
        have := r2 b hb τ' t1
        unfold total
        linarith
      · rw [← hk, List.mem_map] at hs'
        obtain ⟨τ', hτ', rfl⟩ := hs'
        obtain ⟨x, hx, rfl, hdiff⟩ := hkept τ' hτ'
        have := hdiff b hb
        rw [(r1 x hx).2, hb2] at this
        rw [ht, (hf _ (r1 x hx).1).2.2]
        linarith

/-- The assumption of C99 can be met, with at least one assignment for every table. -/
example : ∃ murty, Ranks murty ∧ ∀ m C, murty m C ≠ [] := by
  have h : ∀ m (C : Mat ℝ m), ∃ σ : Equiv.Perm (Fin m), ∀ τ : Equiv.Perm (Fin m), ∑ i, C i (τ i) ≤ ∑ i, C i (σ i) := by
    intro m C
    obtain ⟨σ, hσ⟩ := Finite.exists_max fun τ : Equiv.Perm (Fin m) => ∑ i, C i (τ i)
    exact ⟨σ, hσ⟩
  choose f hf using h
  refine ⟨fun m C => [(f m C, ∑ i, C i (f m C i))], fun m C => ⟨?_, ?_⟩, by simp⟩
  · intro x hx
    rw [List.mem_singleton] at hx
    subst hx
    exact ⟨(f m C).bijective, rfl⟩
  · intro x hx τ hτ
    simp only [List.head?_cons, Option.mem_def, Option.some.injEq] at hx
    subst hx
    exact hf m C (Equiv.ofBijective τ hτ)

/-! ### C100 -/

theorem support_none (env : Env Lm nZ) (cfg : Cfg) (z : Fin nZ) (cs : List (Cand Lm)) (h : ∀ c ∈ cs, cfg.supportDist * cfg.supportDist < env.d2 z c.lm) :
    support env cfg z cs = none := by
  induction cs with
  | nil => rfl
  | cons c cs ih =>
    unfold support
    rw [if_neg (not_le.2 (h c (by simp))), ih fun d hd => h d (by simp [hd])]
    rfl

theorem support_first (env : Env Lm nZ) (cfg : Cfg) (z : Fin nZ) (pre post : List (Cand Lm)) (c : Cand Lm) (h : ∀ d ∈ pre, cfg.supportDist * cfg.supportDist < env.d2 z d.lm)
    (hc : env.d2 z c.lm ≤ cfg.supportDist * cfg.supportDist) :
    support env cfg z (pre ++ c :: post) = some (pre ++ ⟨env.corrC z c.lm, c.n + 1, c.checks⟩ :: post) := by
  induction pre with
  | nil => unfold support; simp [hc]
  | cons d pre ih =>
    rw [List.cons_append]
    unfold support
    rw [if_neg (not_le.2 (h d (by simp))), ih fun x hx => h x (by simp [hx])]
    rfl

/-- **C100** for FastSLAM: a measurement not used in the update supports the first candidate near it, or becomes a landmark or a candidate, before the candidates
are checked (C96). -/
theorem C100_place (env : Env Lm nZ) (cfg : Cfg) (nFov : Nat) (nw : ℝ) (map : List (Lm × ℝ)) (z : Fin nZ) :
    (∀ pre c post, (∀ d ∈ pre, cfg.supportDist * cfg.supportDist < env.d2 z d.lm) → env.d2 z c.lm ≤ cfg.supportDist * cfg.supportDist →
      birthStep env cfg nFov nw (map, pre ++ c :: post) z = (sweep cfg nFov nw (pre ++ ⟨env.corrC z c.lm, c.n + 1, c.checks⟩ :: post)).map fun r => (map ++ r.2, r.1)) ∧
    ∀ cs : List (Cand Lm), (∀ c ∈ cs, cfg.supportDist * cfg.supportDist < env.d2 z c.lm) →
      (cfg.countThr = 1 ∨ nFov ≤ cfg.curThr → birthStep env cfg nFov nw (map, cs) z = (sweep cfg nFov nw cs).map fun r => (map ++ [(env.inv z, nw)] ++ r.2, r.1)) ∧
      (cfg.countThr ≠ 1 → cfg.curThr < nFov → birthStep env cfg nFov nw (map, cs) z = (sweep cfg nFov nw (cs ++ [⟨env.inv z, 1, 0⟩])).map fun r => (map ++ r.2, r.1)) := by
  refine ⟨fun pre c post h1 h2 => ?_, fun cs h => ⟨fun h1 => ?_, fun h1 h2 => ?_⟩⟩
  · have : place env cfg nFov nw (map, pre ++ c :: post) z = (map, pre ++ ⟨env.corrC z c.lm, c.n + 1, c.checks⟩ :: post) := by
      unfold place
      rw [support_first env cfg z pre post c h1 h2]
    unfold birthStep
    rw [this]
  · have : place env cfg nFov nw (map, cs) z = (map ++ [(env.inv z, nw)], cs) := by
      unfold place
      simp only
      rw [support_none env cfg z cs h]
      exact if_pos h1
    unfold birthStep
    rw [this]
  · have : place env cfg nFov nw (map, cs) z = (map, cs ++ [⟨env.inv z, 1, 0⟩]) := by
      unfold place
      simp only
      rw [support_none env cfg z cs h]
      exact if_neg (by omega)
    unfold birthStep
    rw [this]

end FastSLAMProps
end RFS
