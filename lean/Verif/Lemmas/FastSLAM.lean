import Verif.Model.FastSLAM
import Verif.Lemmas.CostMatrixReduce
import Verif.Lemmas.ListModify
import Mathlib.Algebra.BigOperators.Fin
import Mathlib.Tactic.Linarith
import Mathlib.Tactic.Positivity
import Mathlib.Tactic.FieldSimp
import Mathlib.Tactic.Ring

/-!
Lemmas about the FastSLAM map update.
-/

namespace RFS
namespace FastSLAM
open Hungarian (Mat)

variable {Lm : Type} {nZ : Nat}

/-! ### Data association -/

/-- Rows that the reduction does not fix at once. -/
noncomputable def openRows {n : Nat} (T : Mat ℝ n) (lim : ℝ) : List (Fin n) :=
  open Classical in (List.finRange n).filter fun i => decide (∀ j, ¬ CostMat.Sole lim true T i j)

theorem openRows_eq {n : Nat} (T : Mat ℝ n) (lim : ℝ) : CostMat.unfixed (CostMat.keepAf (CostMat.scan (CostMat.mk T) lim true)) = openRows T lim := by
  classical
  unfold CostMat.unfixed openRows
  refine List.filter_congr fun i _ => ?_
  have hA := CostMat.keepAf_iff (CostMat.mk T) lim true (fun _ => rfl) (fun _ => rfl) i
  rw [Bool.eq_iff_iff, decide_eq_true_eq]
  constructor
  · intro h j hj
    rw [(hA j).2 hj] at h
    simp at h
  · intro h
    rcases he : CostMat.keepAf (CostMat.scan (CostMat.mk T) lim true) i with _ | j
    · rfl
    · exact absurd ((hA j).1 he) (h j)

theorem reduce_size {n : Nat} (T : Mat ℝ n) (lim : ℝ) :
    ∃ cm, CostMat.reduce (CostMat.mk T) lim true = some cm ∧ cm.nRed = if (openRows T lim).length = 1 then 0 else (openRows T lim).length := by
  have hcons : Hungarian.Consistent (CostMat.keepAf (CostMat.scan (CostMat.mk T) lim true)) (CostMat.keepAr (CostMat.scan (CostMat.mk T) lim true)) := by
    intro i j
    rw [CostMat.keepAf_iff (CostMat.mk T) lim true (fun _ => rfl) (fun _ => rfl), CostMat.keepAr_iff (CostMat.mk T) lim true (fun _ => rfl) (fun _ => rfl)]
  have hlen := CostMat.unfixed_length hcons
  rw [← openRows_eq]
  set sc := CostMat.scan (CostMat.mk T) lim true with hsc
  unfold CostMat.reduce
  simp only [← hsc]
  rw [dif_pos (by exact hlen)]
  split
  · next h => exact ⟨_, rfl, (if_pos (show (CostMat.unfixed (CostMat.keepAf sc)).length = 1 from h)).symm⟩
  · next h => exact ⟨_, rfl, (if_neg (show ¬ (CostMat.unfixed (CostMat.keepAf sc)).length = 1 from h)).symm⟩

/-- The hypothesis made of a complete assignment of the padded table. -/
def ofPerm {n nZ : Nat} (s : Fin n → Fin n) (i : Fin n) : Option (Fin nZ) := if h : (s i).1 < nZ then some ⟨s i, h⟩ else none

theorem hypotheses_spec {n : Nat} (cfg : Cfg) (murty : ∀ m, Mat ℝ m → List ((Fin m → Fin m) × ℝ)) (T : Mat ℝ n) (hT : ∀ i j, cfg.minLL ≤ T i j) :
    ((openRows T cfg.minLL).length ≤ 1 → hypotheses cfg nZ murty T = .ok []) ∧
    (2 ≤ (openRows T cfg.minLL).length → ∃ (Cr : Mat ℝ (openRows T cfg.minLL).length) (score : ℝ) (ext : (Fin (openRows T cfg.minLL).length → Fin (openRows T cfg.minLL).length) → Fin n → Option (Fin nZ)),
      hypotheses cfg nZ murty T = .ok ((kept cfg (murty _ Cr)).map ext) ∧
      (∀ τ, Function.Bijective τ → ∃ s : Fin n → Fin n, Function.Bijective s ∧ ext τ = ofPerm s ∧ ∑ i, T i (s i) = score + ∑ a, Cr a (τ a)) ∧
      ∀ σ : Fin n → Fin n, Function.Bijective σ → ∃ τ : Fin (openRows T cfg.minLL).length → Fin (openRows T cfg.minLL).length, Function.Bijective τ ∧
        ∑ i, T i (σ i) ≤ score + ∑ a, Cr a (τ a)) := by
  have hclamp : CostMat.clamp cfg.minLL true T = T := by
    funext i j
    unfold CostMat.clamp
    split
    · next h =>
      simp only [CostMat.beyond, Bool.not_true, Bool.and_false, Bool.false_or, Bool.and_true, decide_eq_true_eq] at h
      exact le_antisymm (hT i j) h
    · rfl
  obtain ⟨cm, r, g, h1, h2, h3, h4, h5, h6, h7, h8, h9, h10, h11, Cr, h12, h13⟩ := CostMat.reduce_core T cfg.minLL true
  rw [hclamp] at h3 h9 h11 h13
  obtain ⟨cm', h1', hsz⟩ := reduce_size T cfg.minLL
  rw [h1, Option.some.injEq] at h1'
  subst h1'
  have hrs : r.size = cm.nRed := by
    unfold CostMat.getReduced at h2
    split at h2
    · split at h2
      · exact absurd h2 (by simp)
      · injection h2 with h2
        rw [← h2]
    · exact absurd h2 (by simp)
  constructor
  · intro hle
    have h0 : r.size = 0 := by rw [hrs, hsz]; split <;> omega
    unfold hypotheses
    rw [h1]
    simp only [h2, h0]
    cases r.C with
    | none => rfl
    | some x => simp
  · intro hge
    have h0 : r.size = (openRows T cfg.minLL).length := by rw [hrs, hsz, if_neg (by omega)]
    have hCr : ∀ (a b : Fin r.size), Cr a b = T ((CostMat.unfixed r.fixed).get (a.cast h7.symm)) ((CostMat.unfixed g).get (b.cast h8.symm)) := by
      intro a b
      apply h13
      · rw [h5]; simp [h7]
      · rw [h6]; simp [h8]
    rw [← h0]
    refine ⟨Cr, r.score, fun τ i => (CostMat.remap r.iMap r.jMap τ r.fixed i).bind fun z => if h : z.1 < nZ then some ⟨z.1, h⟩ else none, ?_, ?_, ?_⟩
    · unfold hypotheses
      rw [h1]
      simp only [h2]
      rw [h12 (by omega)]
      simp only
      rw [if_neg (by omega)]
    · intro τ hτ
      obtain ⟨s, g1, g2, g3, g4⟩ := CostMat.merge_spec h4 h7 h8 τ hτ
      refine ⟨s, g1, ?_, ?_⟩
      · funext i
        show (CostMat.remap r.iMap r.jMap τ r.fixed i).bind _ = _
        rw [h5, h6, g2 i]
        rfl
      · rw [CostMat.total_split _ s g3 h7, h9]
        congr 1
        apply Finset.sum_congr rfl
        intro a _
        rw [hCr, g4]
    · intro σ hσ
      obtain ⟨σ', g1, g2⟩ := h11 (Equiv.ofBijective σ hσ)
      obtain ⟨τ, t1, t2⟩ := CostMat.restrict h4 σ' g2 h7 h8
      refine ⟨τ, t1, ?_⟩
      have e : r.score + ∑ a, Cr a (τ a) = ∑ i, T i (σ' i) := by
        rw [CostMat.total_split _ σ' g2 h7, h9]
        congr 1
        apply Finset.sum_congr rfl
        intro a _
        rw [hCr, t2]
      rw [e]
      simpa [CostMat.NoWorse] using g1

theorem tableEntry_ge (env : Env Lm nZ) (cfg : Cfg) (lms : List (Nat × Lm × ℝ)) (m z : Nat) : cfg.minLL ≤ tableEntry env cfg lms m z := by
  unfold tableEntry
  split
  · exact le_rfl
  · split
    · exact le_rfl
    · split
      · split
        · exact le_rfl
        · exact le_max_left _ _
      · exact le_rfl

theorem tableEntry_gt (env : Env Lm nZ) (cfg : Cfg) (lms : List (Nat × Lm × ℝ)) (m : Fin lms.length) (z : Fin nZ) (c : ℝ) :
    tableEntry env cfg lms m z = c ∧ cfg.minLL < c ↔ ∃ l, env.lik lms[m].2.1 = some l ∧ l z ≠ 0 ∧ c = Real.log (l z) ∧ cfg.minLL < c := by
  unfold tableEntry
  rw [List.getElem?_eq_getElem m.2]
  simp only [z.2, dif_pos, Fin.eta]
  simp only [Fin.getElem_fin]
  cases env.lik lms[m.1].2.1 with
  | none =>
    simp only [reduceCtorEq, false_and, exists_false, iff_false, not_and, not_lt]
    intro h; rw [h]
  | some l =>
    simp only [Option.some.injEq]
    constructor
    · rintro ⟨h1, h2⟩
      split at h1
      · rw [h1] at h2; exact absurd h2 (lt_irrefl _)
      · next h =>
        refine ⟨l, rfl, h, ?_, h2⟩
        rcases max_choice cfg.minLL (Real.log (l z)) with hm | hm
        · rw [hm] at h1; rw [h1] at h2; exact absurd h2 (lt_irrefl _)
        · rw [← h1, hm]
    · rintro ⟨l', rfl, h1, h2, h3⟩
      rw [if_neg h1]
      refine ⟨?_, h3⟩
      rw [h2] at h3 ⊢
      exact max_eq_right h3.le

/-! ### Landmarks in range -/

theorem mem_inRange (env : Env Lm nZ) (map : List (Lm × ℝ)) (x : Nat × Lm × ℝ) :
    x ∈ inRange env map ↔ ∃ w, map[x.1]? = some (x.2.1, w) ∧ x.2.2 = env.pd x.2.1 ∧ (env.pd x.2.1 ≠ 0 ∨ env.close x.2.1 = true) := by
  classical
  unfold inRange
  rw [List.mem_filterMap]
  constructor
  · rintro ⟨⟨⟨l, w⟩, i⟩, h1, h2⟩
    rw [List.mem_zipIdx_iff_getElem?] at h1
    simp only at h1 h2
    split at h2
    · next h =>
      rw [Option.some.injEq] at h2
      subst h2
      exact ⟨w, h1, rfl, h⟩
    · exact absurd h2 (by simp)
  · obtain ⟨i, l, p⟩ := x
    rintro ⟨w, h1, h2, h3⟩
    simp only at h1 h2 h3
    subst h2
    exact ⟨((l, w), i), by rw [List.mem_zipIdx_iff_getElem?]; exact h1, if_pos h3⟩

theorem inRange_nodup (env : Env Lm nZ) (map : List (Lm × ℝ)) : ((inRange env map).map Prod.fst).Nodup := by
  classical
  have key : ∀ l : List ((Lm × ℝ) × Nat), ((l.filterMap fun x => if env.pd x.1.1 ≠ 0 ∨ env.close x.1.1 = true then some (x.2, x.1.1, env.pd x.1.1) else none).map
      Prod.fst).Sublist (l.map Prod.snd) := by
    intro l
    induction l with
    | nil => exact List.Sublist.slnil
    | cons a l ih =>
      rw [List.filterMap_cons]
      split
      · next h => exact ih.cons _
      · next b h =>
        split at h
        · rw [Option.some.injEq] at h
          subst h
          exact ih.cons_cons _
        · exact absurd h (by simp)
  refine (key map.zipIdx).nodup ?_
  rw [List.zipIdx_map_snd]
  exact List.nodup_range'

/-! ### The loop over the landmarks in range -/

theorem bind_ok {α β ε : Type} (a : α) (f : α → Except ε β) : (Except.ok a : Except ε α).bind f = f a := rfl

theorem mapM_ok {α β ε : Type} (f : α → Except ε β) : ∀ (l : List α) (out : List β), l.mapM f = .ok out ↔ List.Forall₂ (fun a b => f a = .ok b) l out := by
  intro l
  induction l with
  | nil =>
    intro out
    rw [List.mapM_nil, List.forall₂_nil_left_iff]
    constructor
    · intro h; injection h with h; exact h.symm
    · rintro rfl; rfl
  | cons a l ih =>
    intro out
    rw [List.mapM_cons]
    cases hf : f a with
    | error e =>
      constructor
      · intro h; exact absurd h (by simp [bind, Except.bind])
      · intro h
        cases h with
        | cons h1 h2 => rw [hf] at h1; exact absurd h1 (by simp)
    | ok b =>
      cases hl : l.mapM f with
      | error e =>
        constructor
        · intro h; exact absurd h (by simp [bind, Except.bind])
        · intro h
          cases h with
          | cons h1 h2 => rw [(ih _).2 h2] at hl; exact absurd hl (by simp)
      | ok bs =>
        constructor
        · intro h
          injection h with h
          subst h
          exact .cons hf ((ih _).1 hl)
        · intro h
          cases h with
          | cons h1 h2 =>
            rw [(ih _).2 h2] at hl
            rw [hf] at h1
            injection h1 with h1
            injection hl with hl
            subst h1 hl
            rfl

theorem existence_hit (cfg : Cfg) (pfa pd w : ℝ) (h0 : 0 < cfg.prior) (h1 : cfg.prior < 1) (hf : 0 < pfa) (hp0 : 0 ≤ pd) (hp1 : pd ≤ 1) :
    0 < existence cfg pfa pd w true ∧ existence cfg pfa pd w true < 1 := by
  have hden : 0 < pfa + (1 - pfa) * pd * cfg.prior := by
    have : 0 ≤ pd * cfg.prior := mul_nonneg hp0 h0.le
    have h2 : pd * cfg.prior < 1 := by nlinarith
    nlinarith
  have hnum : 0 < (1 - pd) * pfa * cfg.prior + pd * cfg.prior := by
    rcases eq_or_lt_of_le hp0 with h | h
    · rw [← h]; simp; positivity
    · have := mul_pos h h0
      have : 0 ≤ (1 - pd) * pfa * cfg.prior := mul_nonneg (mul_nonneg (by linarith) hf.le) h0.le
      linarith
  unfold existence
  rw [if_pos rfl]
  refine ⟨div_pos hnum hden, ?_⟩
  rw [div_lt_one hden]
  nlinarith [mul_pos hf (sub_pos.2 h1)]

theorem existence_miss (cfg : Cfg) (pfa pd w : ℝ) (h0 : 0 < cfg.prior) (h1 : cfg.prior < 1) (_hp0 : 0 ≤ pd) (hp1 : pd < 1) :
    0 < existence cfg pfa pd w false ∧ existence cfg pfa pd w false < 1 := by
  unfold existence
  rw [if_neg (by simp)]
  split
  · constructor <;> norm_num
  · have hn : 0 < (1 - pd) * cfg.prior := mul_pos (by linarith) h0
    have hd : 0 < (1 - cfg.prior) + (1 - pd) * cfg.prior := by linarith
    exact ⟨div_pos hn hd, by rw [div_lt_one hd]; linarith⟩

/-- A row of the loop: index in the map, probability of detection, measurement assigned, row of the table. -/
structure Row (nZ : Nat) where
  idx : Nat
  pd : ℝ
  z : Option (Fin nZ)
  ll : Fin nZ → ℝ

/-- Whether landmark `e` is corrected, with what and to what. -/
noncomputable def hitOf (env : Env Lm nZ) (cfg : Cfg) (map : List (Lm × ℝ)) (r : Row nZ) : Option (Fin nZ × Lm) :=
  (map[r.idx]?).bind fun e => corrected env cfg r.ll r.z e.1

/-- What becomes of a landmark and its weight. -/
noncomputable def newLm (env : Env Lm nZ) (cfg : Cfg) (r : Row nZ) (e : Lm × ℝ) : Lm × ℝ :=
  match corrected env cfg r.ll r.z e.1 with
  | some (_, lm') => (lm', e.2 + Real.log (existence cfg (env.clutter / nZ) r.pd e.2 true / (1 - existence cfg (env.clutter / nZ) r.pd e.2 true)))
  | none => (e.1, e.2 + Real.log (existence cfg (env.clutter / nZ) r.pd e.2 false / (1 - existence cfg (env.clutter / nZ) r.pd e.2 false)))

/-- Standing assumptions: prior in `(0, 1)`, probabilities of detection in `[0, 1)`, positive clutter. -/
structure Ok (env : Env Lm nZ) (cfg : Cfg) : Prop where
  p0 : 0 < cfg.prior
  p1 : cfg.prior < 1
  pd0 : ∀ l, 0 ≤ env.pd l
  pd1 : ∀ l, env.pd l < 1
  cl : 0 < env.clutter / nZ

theorem addLogOdds_ok (w p : ℝ) (h : 0 < p ∧ p < 1) : addLogOdds w p = .ok (w + Real.log (p / (1 - p))) := by
  unfold addLogOdds
  rw [if_pos h]

theorem lmStep_eq {env : Env Lm nZ} {cfg : Cfg} (hok : Ok env cfg) (s : LoopSt Lm nZ) (r : Row nZ) (hpd : 0 ≤ r.pd ∧ r.pd < 1) (e : Lm × ℝ) (he : s.map[r.idx]? = some e) :
    lmStep env cfg s (r.idx, r.pd) r.z r.ll = .ok ⟨s.map.modify r.idx (newLm env cfg r),
      s.nFov + (if (hitOf env cfg s.map r).isSome then 1 else 0),
      (fun z => s.used z || decide ((hitOf env cfg s.map r).map Prod.fst = some z)),
      s.logW + ((hitOf env cfg s.map r).map fun x => r.ll x.1).getD 0⟩ := by
  have hset : ∀ y, newLm env cfg r e = y → s.map.set r.idx y = s.map.modify r.idx (newLm env cfg r) := by
    rintro _ rfl
    refine List.ext_getElem? fun i => ?_
    rw [List.getElem?_modify]
    by_cases hi : r.idx = i
    · subst hi
      rw [List.getElem?_set_self' , he]
      simp
    · rw [List.getElem?_set_ne hi]
      cases s.map[i]? with
      | none => rfl
      | some x => simp [hi]
  unfold lmStep
  rw [he]
  have hh : hitOf env cfg s.map r = corrected env cfg r.ll r.z e.1 := by unfold hitOf; rw [he]; rfl
  rw [hh]
  dsimp only
  cases hc : corrected env cfg r.ll r.z e.1 with
  | none =>
    dsimp only
    rw [addLogOdds_ok _ _ (existence_miss cfg _ r.pd e.2 hok.p0 hok.p1 hpd.1 hpd.2)]
    simp only [Except.map]
    rw [hset _ (by unfold newLm; rw [hc])]
    simp
  | some x =>
    obtain ⟨z, lm'⟩ := x
    dsimp only
    rw [addLogOdds_ok _ _ (existence_hit cfg _ r.pd e.2 hok.p0 hok.p1 hok.cl hpd.1 hpd.2.le)]
    simp only [Except.map]
    rw [hset _ (by unfold newLm; rw [hc])]
    simp only [Option.isSome_some, if_true, Option.map_some, Option.getD_some, Except.ok.injEq, LoopSt.mk.injEq, true_and, and_true]
    funext z'
    by_cases hz : z' = z
    · subst hz; simp
    · rw [Function.update_of_ne hz]
      simp [Ne.symm hz]

theorem loop_eq {env : Env Lm nZ} {cfg : Cfg} (hok : Ok env cfg) (rows : List (Row nZ)) (hnd : (rows.map Row.idx).Nodup) :
    ∀ s : LoopSt Lm nZ, (∀ r ∈ rows, 0 ≤ r.pd ∧ r.pd < 1 ∧ r.idx < s.map.length) →
      rows.foldlM (fun s r => lmStep env cfg s (r.idx, r.pd) r.z r.ll) s = .ok ⟨rows.foldl (fun m r => m.modify r.idx (newLm env cfg r)) s.map,
        s.nFov + rows.countP (fun r => (hitOf env cfg s.map r).isSome),
        (fun z => s.used z || decide (∃ r ∈ rows, (hitOf env cfg s.map r).map Prod.fst = some z)),
        s.logW + (rows.map fun r => ((hitOf env cfg s.map r).map fun x => r.ll x.1).getD 0).sum⟩ := by
  induction rows with
  | nil => intro s _; simp; rfl
  | cons r rows ih =>
    intro s h
    rw [List.map_cons, List.nodup_cons] at hnd
    obtain ⟨h1, h2, h3⟩ := h r (by simp)
    rw [List.foldlM_cons, lmStep_eq hok s r ⟨h1, h2⟩ _ (List.getElem?_eq_getElem h3)]
    have hkeep : ∀ r' ∈ rows, hitOf env cfg (s.map.modify r.idx (newLm env cfg r)) r' = hitOf env cfg s.map r' := by
      intro r' hr'
      unfold hitOf
      rw [List.getElem?_modify]
      have hne : r.idx ≠ r'.idx := fun e => hnd.1 (by rw [e]; exact List.mem_map_of_mem hr')
      cases s.map[r'.idx]? with
      | none => rfl
      | some x => simp [hne]
    show (rows.foldlM _ _ : Except _ _) = _
    rw [ih hnd.2 _ (fun r' hr' => by simpa using h r' (by simp [hr']))]
    simp only [Except.ok.injEq, LoopSt.mk.injEq]
    refine ⟨rfl, ?_, ?_, ?_⟩
    · rw [List.countP_congr fun r' hr' => by rw [hkeep r' hr'], List.countP_cons]
      omega
    · funext z
      have : (∃ r' ∈ rows, (hitOf env cfg (s.map.modify r.idx (newLm env cfg r)) r').map Prod.fst = some z) ↔
          ∃ r' ∈ rows, (hitOf env cfg s.map r').map Prod.fst = some z :=
        exists_congr fun r' => and_congr_right fun hr' => by rw [hkeep r' hr']
      rw [Bool.or_assoc]
      congr 1
      simp only [this, List.mem_cons, exists_eq_or_imp, Bool.decide_or]
    · rw [List.map_congr_left fun r' hr' => by rw [hkeep r' hr'], List.map_cons, List.sum_cons]
      ring

/-- The rows of the loop. -/
noncomputable def rows (env : Env Lm nZ) (cfg : Cfg) (lms : List (Nat × Lm × ℝ)) (da : Fin (max lms.length nZ) → Option (Fin nZ)) (m : Fin lms.length) : Row nZ :=
  ⟨lms[m].1, lms[m].2.2, da ⟨m, lt_of_lt_of_le m.2 (le_max_left _ _)⟩, fun z => tableEntry env cfg lms m z⟩

theorem lmLoop_eq {env : Env Lm nZ} {cfg : Cfg} (hok : Ok env cfg) (map : List (Lm × ℝ)) (da : Fin (max (inRange env map).length nZ) → Option (Fin nZ)) :
    lmLoop env cfg (inRange env map) da map = .ok ⟨(List.finRange (inRange env map).length).foldl (fun ts m => ts.modify (rows env cfg _ da m).idx (newLm env cfg (rows env cfg _ da m))) map,
      (List.finRange (inRange env map).length).countP (fun m => (hitOf env cfg map (rows env cfg _ da m)).isSome),
      (fun z => decide (∃ m, (hitOf env cfg map (rows env cfg _ da m)).map Prod.fst = some z)),
      ∑ m, ((hitOf env cfg map (rows env cfg _ da m)).map fun x => (rows env cfg _ da m).ll x.1).getD 0⟩ := by
  have hnd : (((List.finRange (inRange env map).length).map (rows env cfg _ da)).map Row.idx).Nodup := by
    rw [List.map_map]
    have : (List.finRange (inRange env map).length).map (Row.idx ∘ rows env cfg (inRange env map) da) = (inRange env map).map Prod.fst := by
      refine List.ext_getElem (by simp) fun i h1 h2 => ?_
      simp [rows]
    rw [this]
    exact inRange_nodup env map
  have h := loop_eq hok _ hnd ⟨map, 0, fun _ => false, 0⟩ (by
    intro r hr
    rw [List.mem_map] at hr
    obtain ⟨m, _, rfl⟩ := hr
    obtain ⟨w, h1, h2, h3⟩ := (mem_inRange env map (inRange env map)[m]).1 (List.getElem_mem m.2)
    refine ⟨?_, ?_, ?_⟩
    · show 0 ≤ (inRange env map)[m].2.2
      rw [h2]; exact hok.pd0 _
    · show (inRange env map)[m].2.2 < 1
      rw [h2]; exact hok.pd1 _
    · exact (List.getElem?_eq_some_iff.1 h1).1)
  rw [List.foldlM_map] at h
  unfold lmLoop
  refine h.trans ?_
  simp only [Except.ok.injEq, LoopSt.mk.injEq]
  refine ⟨?_, ?_, ?_, ?_⟩
  · rw [List.foldl_map]
  · rw [List.countP_map, Nat.zero_add]; rfl
  · funext z
    rw [Bool.false_or, decide_eq_decide]
    simp
  · rw [List.map_map, zero_add, ← List.ofFn_eq_map, List.sum_ofFn]
    rfl

end FastSLAM
end RFS
