import Verif.Lemmas.MBRuns

/-!
Properties C178-C179: maps of the CB-MeMBer filter over whole runs.
-/

set_option linter.unusedSectionVars false

namespace RFS
namespace MBFProps
open MBF PF GMB
open GM hiding normalizeWeights

variable {X D Z B K : Type*} [Field K] [LinearOrder K] [IsStrictOrderedRing K] {d : Nat}

/-! ### C178: runs of the CB-MeMBer filter -/

/-- Specification: a map whose existence probabilities are in `[0, 1)` and whose mixtures have as many Gaussians as they say, no null pointers, and weights that are not negative and have a total of at
most one. -/
def MapOk (ts : List (Track K d)) : Prop := ∀ t ∈ ts, 0 ≤ t.P ∧ t.P < 1 ∧ getGaussianCount t.gm = t.gm.g.length ∧ (∀ e ∈ t.gm.g, e.lm.isSome ∧ 0 ≤ e.w) ∧ (t.gm.g.map Gauss.w).sum ≤ 1

theorem mapOk_iff (ts : List (Track K d)) : MapOk ts ↔ SolidMap ts := by
  constructor
  · intro h t ht
    obtain ⟨a, b, c, e, f⟩ := h t ht
    exact ⟨a, b, c, fun x hx => (e x hx).1, fun x hx => (e x hx).2, f⟩
  · intro h t ht
    obtain ⟨a, b, c⟩ := h t ht
    exact ⟨a, b, c.n, fun x hx => ⟨c.lm x hx, c.w0 x hx⟩, c.w1⟩

/-- **C178**, the full claim: from the constructor on, every run is defined, no freed memory is read, all weights are positive and all maps in order. -/
def C178_full (cfg : Cfg K) (env : X → (Zs : List Z) → CBM.Env K d Zs.length) (lik : X → List Z → List (Track K d) → K) (inv : X → Z → Lm K d) (lstep : Lm K d → Lm K d)
    (maha : Lm K d → Lm K d → K) (srt : List (Gauss K d) → List (Gauss K d)) (garb garb2 : X → List Z → Nat → GMix K d) : Prop :=
  ∀ (n : Nat) (x0 : X) (cmds : List (Cmd X Z K)), 0 < n → Draws cmds → ∃ f, exec (cbm cfg env lik inv lstep maha srt garb garb2) cmds (ctor n x0 []) = .ok f ∧ f.ub = false ∧
    ∀ p ∈ f.parts, 0 < p.w ∧ MapOk p.st.m

theorem cbmUpd_eq (cfg : Cfg K) (env : X → (Zs : List Z) → CBM.Env K d Zs.length) (maha : Lm K d → Lm K d → K) {srt : List (Gauss K d) → List (Gauss K d)} (hs : IsSort srt)
    (garb garb2 : X → List Z → Nat → GMix K d) (x : X) (Zs : List Z) (ts : List (Track K d)) (he : CBMProps.EnvOk (env x Zs)) (hp : 0 < cfg.pruneT) (h : SolidMap ts) :
    ∃ ub0 t0 un0 ub ts', CBM.updateMap (env x Zs) (garb x Zs) ts = some (ub0, t0, un0) ∧ SolidMap t0 ∧ cbmUpd cfg env maha srt garb garb2 x Zs ts = some (ub, ts', un0) ∧ SolidMap ts' ∧
      (∀ t ∈ t0, cfg.trackT ≤ t.P → ∃ r q, merge maha cfg.mergeT cfg.mergeF t.gm = some r ∧ prune srt cfg.pruneT r.2 = some q ∧ (⟨t.P, t.prevP, q.2⟩ : Track K d) ∈ ts') ∧
      ∀ t' ∈ ts', ∃ t ∈ t0, cfg.trackT ≤ t.P ∧ t'.P = t.P ∧ ∃ r q, merge maha cfg.mergeT cfg.mergeF t.gm = some r ∧ Holed r.2 ∧ (r.2.g.map Gauss.w).sum = (t.gm.g.map Gauss.w).sum ∧
        r.2.g.length = t.gm.g.length ∧ prune srt cfg.pruneT r.2 = some q ∧ t'.gm = q.2 := by
  obtain ⟨ub0, t0, un0, h1, h2⟩ := updateMap_solid he (garb x Zs) h
  obtain ⟨t1, h3, h4⟩ := forall2_exists (f := fun tr : Track K d => (merge maha cfg.mergeT cfg.mergeF tr.gm).map fun r => { tr with gm := r.2 })
    (P := fun t t' => t'.P = t.P ∧ t'.prevP = t.prevP ∧ ∃ r, merge maha cfg.mergeT cfg.mergeF t.gm = some r ∧ Holed r.2 ∧ (r.2.g.map Gauss.w).sum = (t.gm.g.map Gauss.w).sum ∧
      r.2.g.length = t.gm.g.length ∧ t'.gm = r.2) t0 (by
    intro t ht
    obtain ⟨r, hr, hh⟩ := merge_solid maha cfg.mergeT cfg.mergeF (h2 t ht).2.2
    obtain ⟨s, e, a, b⟩ := merge_inv (maha := maha) (t := cfg.mergeT) (f := cfg.mergeF) (fun s => (s.2.g.map Gauss.w).sum = (t.gm.g.map Gauss.w).sum) t.gm rfl (by
      intro k m1 i j b m' a3 hl hij hj he
      simp only at a3 ⊢
      rw [← a3]
      exact merge2_sum (F := Gauss.w) ⟨rfl, fun _ _ _ _ _ _ _ => rfl⟩ (by omega) (by omega) (by omega) he)
    rw [hr] at e
    cases e
    exact ⟨{ t with gm := r.2 }, by rw [hr]; rfl, rfl, rfl, r, hr, hh, a, b, rfl⟩)
  obtain ⟨ub2, t2, h5, h6, -⟩ := GMBProps.C27_kept_tracks_partial (garb2 x Zs) cfg.trackT t1
  have hmem2 : ∀ t, t ∈ t2 ↔ t ∈ t1 ∧ cfg.trackT ≤ t.P := fun t => by rw [h6.mem_iff]; simp
  have hback : ∀ t' ∈ t1, ∃ t ∈ t0, t'.P = t.P ∧ t'.prevP = t.prevP ∧ ∃ r, merge maha cfg.mergeT cfg.mergeF t.gm = some r ∧ Holed r.2 ∧ (r.2.g.map Gauss.w).sum = (t.gm.g.map Gauss.w).sum ∧
      r.2.g.length = t.gm.g.length ∧ t'.gm = r.2 := by
    intro t' ht'
    obtain ⟨i, hi, rfl⟩ := List.getElem_of_mem ht'
    obtain ⟨t, ht, -, hr⟩ := (forall2_get h4 i).2 _ (List.getElem?_eq_getElem hi)
    exact ⟨t, List.mem_of_getElem? ht, hr⟩
  obtain ⟨t3, h7, h8⟩ := forall2_exists (f := fun tr : Track K d => (prune srt cfg.pruneT tr.gm).map fun r => { tr with gm := r.2 })
    (P := fun t t' => t'.P = t.P ∧ t'.prevP = t.prevP ∧ ∃ q, prune srt cfg.pruneT t.gm = some q ∧ t'.gm = q.2 ∧ Solid q.2) t2 (by
    intro t ht
    obtain ⟨t', -, -, -, r, -, hh, -, -, hg⟩ := hback t ((hmem2 t).1 ht).1
    obtain ⟨q, hq, hqs⟩ := prune_solid hs hp hh
    rw [← hg] at hq
    exact ⟨{ t with gm := q.2 }, by rw [hq]; rfl, rfl, rfl, q, hq, rfl, hqs⟩)
  refine ⟨ub0, t0, un0, ub0 || ub2, t3, h1, h2, ?_, ?_, ?_, ?_⟩
  · unfold cbmUpd
    rw [h1, Option.bind_some]
    simp only
    have h3' : mergeGM maha cfg.mergeT cfg.mergeF t0 = some t1 := h3
    have h7' : pruneGM srt cfg.pruneT t2 = some t3 := h7
    rw [h3', Option.bind_some, h5, Option.bind_some]
    simp only [h7', Option.map_some]
  · intro t' ht'
    obtain ⟨i, hi, rfl⟩ := List.getElem_of_mem ht'
    obtain ⟨t, ht, -, hP, -, q, -, hg, hq⟩ := (forall2_get h8 i).2 _ (List.getElem?_eq_getElem hi)
    obtain ⟨t'', ht'', e1, -⟩ := hback t ((hmem2 t).1 (List.mem_of_getElem? ht)).1
    rw [hP, e1, hg]
    exact ⟨(h2 _ ht'').1, (h2 _ ht'').2.1, hq⟩
  · intro t ht hT
    obtain ⟨i, hi, rfl⟩ := List.getElem_of_mem ht
    obtain ⟨t1', ht1, -, e1, e2, r, hr, -, -, -, hg⟩ := (forall2_get h4 i).1 _ (List.getElem?_eq_getElem hi)
    have hm : t1' ∈ t2 := (hmem2 _).2 ⟨List.mem_of_getElem? ht1, by rw [e1]; exact hT⟩
    obtain ⟨j, hj, rfl⟩ := List.getElem_of_mem hm
    obtain ⟨t3', ht3, -, f1, f2, q, hq, hqg, -⟩ := (forall2_get h8 j).1 _ (List.getElem?_eq_getElem hj)
    refine ⟨r, q, hr, by rw [← hg]; exact hq, ?_⟩
    have : t3' = ⟨t0[i].P, t0[i].prevP, q.2⟩ := by
      cases t3' with
      | mk P pp gm =>
        simp only at f1 f2 hqg
        rw [f1, e1, f2, e2, hqg]
    rw [← this]
    exact List.mem_of_getElem? ht3
  · intro t' ht'
    obtain ⟨i, hi, rfl⟩ := List.getElem_of_mem ht'
    obtain ⟨t, ht, -, hP, -, q, hq, hg, -⟩ := (forall2_get h8 i).2 _ (List.getElem?_eq_getElem hi)
    obtain ⟨hm1, hm2⟩ := (hmem2 t).1 (List.mem_of_getElem? ht)
    obtain ⟨t'', ht'', e1, -, r, a1, a2, a3, a4, a5⟩ := hback t hm1
    exact ⟨t'', ht'', by rw [← e1]; exact hm2, by rw [hP, e1], r, q, a1, a2, a3, a4, by rw [← a5]; exact hq, hg⟩

theorem stillTracks_ok (f : Lm K d → Lm K d) {ts : List (Track K d)} (h : SolidMap ts) : ∃ ts', stillTracks f ts = some ts' ∧ SolidMap ts' ∧
    ∀ t ∈ ts, ∃ t' ∈ ts', t'.P = t.P ∧ t'.gm.g.map Gauss.w = t.gm.g.map Gauss.w := by
  obtain ⟨ts', h1, h2⟩ := forall2_exists (f := fun t : Track K d => ((List.range t.gm.n.toNat).foldlM (stillStep f) t.gm).map fun m => { t with gm := m })
    (P := fun t t' => t'.P = t.P ∧ Solid t'.gm ∧ t'.gm.g.map Gauss.w = t.gm.g.map Gauss.w) ts (by
      intro t ht
      obtain ⟨m, hm, hs, hw⟩ := still_solid f (h t ht).2.2
      exact ⟨{ t with gm := m }, by rw [hm]; rfl, rfl, hs, hw⟩)
  refine ⟨ts', h1, ?_, ?_⟩
  · intro t' ht'
    obtain ⟨i, hi, rfl⟩ := List.getElem_of_mem ht'
    obtain ⟨t, ht, -, hP, hs, -⟩ := (forall2_get h2 i).2 _ (List.getElem?_eq_getElem hi)
    rw [hP]
    exact ⟨(h t (List.mem_of_getElem? ht)).1, (h t (List.mem_of_getElem? ht)).2.1, hs⟩
  · intro t ht
    obtain ⟨i, hi, rfl⟩ := List.getElem_of_mem ht
    obtain ⟨t', ht', -, hP, -, hw⟩ := (forall2_get h2 i).1 _ (List.getElem?_eq_getElem hi)
    exact ⟨t', List.mem_of_getElem? ht', hP, hw⟩

theorem born_solid {cfg : Cfg K} (hb : 0 ≤ cfg.birthPE ∧ cfg.birthPE < 1) (l : Lm K d) {ts : List (Track K d)} (h : SolidMap ts) :
    SolidMap (ts ++ [⟨cfg.birthPE, 0, addGaussian empty l 1⟩]) := by
  intro t ht
  rcases List.mem_append.1 ht with ht | ht
  · exact h t ht
  · rw [List.mem_singleton] at ht
    subst ht
    exact ⟨hb.1, hb.2, addGaussian_solid l⟩

/-- C178 (partial): every run in which births are processed between a non-empty scan and a following empty one is defined; all weights stay positive and all maps in order. Missing: other runs
(`C178_violated`), and that no freed memory is read (`C178_freed_memory`). -/
theorem C178_runs_partial (cfg : Cfg K) (env : X → (Zs : List Z) → CBM.Env K d Zs.length) (lik : X → List Z → List (Track K d) → K) (inv : X → Z → Lm K d) (lstep : Lm K d → Lm K d)
    (maha : Lm K d → Lm K d → K) {srt : List (Gauss K d) → List (Gauss K d)} (garb garb2 : X → List Z → Nat → GMix K d) (hs : IsSort srt) (he : ∀ x Zs, CBMProps.EnvOk (env x Zs))
    (hl : ∀ x Zs ts, 0 < lik x Zs ts) (hb : 0 ≤ cfg.birthPE ∧ cfg.birthPE < 1) (hp : 0 < cfg.pruneT) (n : Nat) (hn : 0 < n) (x0 : X) (cmds : List (Cmd X Z K)) (hpr : Proper true cmds)
    (hd : Draws cmds) : ∃ f, exec (cbm cfg env lik inv lstep maha srt garb garb2) cmds (ctor n x0 []) = .ok f ∧ f.parts.length = n ∧ ∀ p ∈ f.parts, 0 < p.w ∧ MapOk p.st.m := by
  have ho := C175_reports_cbm cfg env lik inv lstep maha srt garb garb2
  obtain ⟨f, h1, h2⟩ := exec_good ho (G := SolidMap) (fun x Zs m _ hm => by
      obtain ⟨_, _, _, _, _, _, _, h, hs', -⟩ := cbmUpd_eq cfg env maha hs garb garb2 x Zs m (he x Zs) hp hm
      exact ⟨_, h, hs'⟩) (fun x Zs m _ _ => hl x Zs m) (fun x b z m hm => born_solid hb _ hm)
    (fun m hm => by obtain ⟨m', h, hs', -⟩ := stillTracks_ok lstep hm; exact ⟨m', h, hs'⟩) hn cmds true _ (inv_ctor _ n x0 []) (ctor_good n x0 [] (by intro t ht; simp at ht)) hpr hd
  obtain ⟨fr, hi⟩ := (exec_inv ho cmds true _ (inv_ctor _ n x0 []) hpr).2 f h1
  exact ⟨f, h1, hi.parts, fun p hp => ⟨(h2 p hp).1, (mapOk_iff _).2 (h2 p hp).2⟩⟩

/-- **C178 is violated** in every such filter: after a scan with an empty scan behind it `predict` is undefined. -/
theorem C178_violated (cfg : Cfg K) (env : X → (Zs : List Z) → CBM.Env K d Zs.length) (lik : X → List Z → List (Track K d) → K) (hl : ∀ x Zs, lik x Zs [] = 1) (inv : X → Z → Lm K d)
    (lstep : Lm K d → Lm K d) (maha : Lm K d → Lm K d → K) (srt : List (Gauss K d) → List (Gauss K d)) (garb garb2 : X → List Z → Nat → GMix K d) (x0 : X) (z : Z) :
    ¬ C178_full cfg env lik inv lstep maha srt garb garb2 := by
  intro h
  have hst := stale (cbm cfg env lik inv lstep maha srt garb garb2) x0 [] [] z 0
    (by simp [cbm, cbmUpd, CBM.updateMap, mergeGM, pruneTracks, pruneGM, List.range_succ]) (hl _ _) 0 fun _ x => x
  obtain ⟨f, hf, -⟩ := h 1 x0 [.update 0 0 0 [z], .update 0 0 0 [], .predict fun _ x => x] one_pos (by simp [Draws])
  rw [hst] at hf
  cases hf

/-- A filter with the default configuration on a line, detecting with probability `pd`; `acc` says whether the Kalman filter accepts measurements. -/
def lineF (pd : ℚ) (acc : Bool) : Ops ℚ (List (Track ℚ 1)) ℚ Nat ℚ :=
  cbm ⟨1 / 2, 1 / 2, 3 / 2, 1 / 5, 1 / 1000, 1⟩ (fun _ _ => ⟨fun _ => pd, fun _ l => if acc then some (l, 1) else none, fun _ => 1⟩) (fun _ _ _ => 1)
    (fun x z => ⟨fun _ => x + z, fun _ _ => 1⟩) id (fun a b => (a.x 0 - b.x 0) ^ 2) GMProps.srtQ (fun _ _ _ => empty) (fun _ _ _ => empty)

/-- The final state of a run of one particle. -/
def lineRun (pd : ℚ) (acc : Bool) (cmds : List (Cmd ℚ ℚ ℚ)) : Option (Filt ℚ (List (Track ℚ 1)) ℚ Nat ℚ) :=
  match exec (lineF pd acc) cmds (ctor 1 0 []) with
  | .ok f => some f
  | _ => none

/-- Freed memory is read in a run that is allowed by `C178_runs_partial`: a landmark that is detected with certainty is not seen again, so that the last track is removed. -/
theorem C178_freed_memory : ∃ cmds : List (Cmd ℚ ℚ ℚ), Proper true cmds ∧ Draws cmds ∧ (lineRun 1 false cmds).map Filt.ub = some true := by
  refine ⟨[.update 0 0 0 [1], .predict fun _ x => x, .update 0 0 0 [1]], by simp [Proper], by simp [Draws], ?_⟩
  decide +kernel

/-- The hypotheses of `C178_runs_partial` can be met. -/
example : Proper true ([.update 0 0 0 [0, 10, 20, 30, 40, 50], .predict fun _ x => x, .update 0 0 0 [25]] : List (Cmd ℚ ℚ ℚ)) ∧
    (∀ Zs : List ℚ, CBMProps.EnvOk (⟨fun _ => 1 / 2, fun _ l => some (l, 1), fun _ => 1⟩ : CBM.Env ℚ 1 Zs.length)) ∧ IsSort GMProps.srtQ := by
  refine ⟨by simp [Proper], fun Zs => ⟨fun _ => by norm_num, fun _ => by norm_num, ?_, fun _ => by norm_num⟩, GMProps.isSort_insertion⟩
  intro z l r h
  cases h
  exact zero_le_one

/-! ### C179: tracks without Gaussians -/

/-- **C179**, the full claim: after a run every track of every particle has at least one Gaussian. -/
def C179_full (o : Ops X (List (Track K d)) Z B K) : Prop := ∀ (n : Nat) (x0 : X) (cmds : List (Cmd X Z K)) (f : Filt X (List (Track K d)) Z B K), 0 < n → Proper true cmds → Draws cmds →
  exec o cmds (ctor n x0 []) = .ok f → ∀ p ∈ f.parts, ∀ t ∈ p.st.m, t.gm.g ≠ []

theorem prune_nonempty {srt : List (Gauss K d) → List (Gauss K d)} (hs : IsSort srt) (t : K) (m : GMix K d) {q : Nat × GMix K d} (h : prune srt t m = some q) :
    q.2.g ≠ [] ↔ ∃ e ∈ m.g, t ≤ e.w := by
  obtain ⟨k, m', e, h1, -⟩ := prune_spec hs t m
  rw [h] at e
  cases e
  constructor
  · intro hne
    obtain ⟨x, hx⟩ := List.exists_mem_of_ne_nil _ hne
    have := h1.mem_iff.1 hx
    simp only [List.mem_filter, decide_eq_true_eq] at this
    exact ⟨x, this⟩
  · rintro ⟨x, hx, hw⟩ h0
    have : x ∈ m'.g := h1.mem_iff.2 (by simp [hx, hw])
    simp only at h0
    rw [h0] at this
    simp at this

/-- C179 (partial): a track that is kept has a Gaussian if before merging its mean weight is at least the pruning threshold, in particular if it has at most `1 / pruneT` Gaussians of total weight one. Missing: larger
mixtures (`C179_violated`). -/
theorem C179_kept_partial (cfg : Cfg K) (env : X → (Zs : List Z) → CBM.Env K d Zs.length) (maha : Lm K d → Lm K d → K) {srt : List (Gauss K d) → List (Gauss K d)} (hs : IsSort srt)
    (garb garb2 : X → List Z → Nat → GMix K d) (x : X) (Zs : List Z) (ts : List (Track K d)) (he : CBMProps.EnvOk (env x Zs)) (hp : 0 < cfg.pruneT) (h : MapOk ts) :
    ∃ ub0 t0 un0 ub ts', CBM.updateMap (env x Zs) (garb x Zs) ts = some (ub0, t0, un0) ∧ cbmUpd cfg env maha srt garb garb2 x Zs ts = some (ub, ts', un0) ∧
      ∀ t' ∈ ts', ∃ t ∈ t0, cfg.trackT ≤ t.P ∧ t'.P = t.P ∧ (t.gm.g ≠ [] → t.gm.g.length * cfg.pruneT ≤ (t.gm.g.map Gauss.w).sum → t'.gm.g ≠ []) := by
  obtain ⟨ub0, t0, un0, ub, ts', h1, -, h3, -, -, h4⟩ := cbmUpd_eq cfg env maha hs garb garb2 x Zs ts he hp ((mapOk_iff ts).1 h)
  refine ⟨ub0, t0, un0, ub, ts', h1, h3, fun t' ht' => ?_⟩
  obtain ⟨t, ht, a1, a2, r, q, -, -, b2, b3, b4, b5⟩ := h4 t' ht'
  refine ⟨t, ht, a1, a2, fun hne hsum => ?_⟩
  rw [b5, prune_nonempty hs _ _ b4]
  by_contra hc
  push Not at hc
  have hlt : (r.2.g.map Gauss.w).sum < (r.2.g.map fun _ => cfg.pruneT).sum := by
    apply List.sum_lt_sum_of_ne_nil
    · intro h0
      rw [h0, List.length_nil] at b3
      exact hne (List.eq_nil_of_length_eq_zero b3.symm)
    · exact hc
  rw [b2, List.map_const', List.sum_replicate, nsmul_eq_mul, b3] at hlt
  exact absurd hsum (not_le.2 hlt)

/-- The run of a default filter that gives a track without Gaussians: six landmarks, then one measurement that all of them explain equally well. -/
def ghostCmds : List (Cmd ℚ ℚ ℚ) := [.update 0 0 0 [0, 10, 20, 30, 40, 50], .predict fun _ x => x, .update 0 0 0 [25]]

theorem ghost_run : (lineRun (1 / 2) true ghostCmds).map (fun f => f.parts.map fun p => p.st.m.map fun t => (t.P, t.gm.g.length)) =
    some [[(1 / 3, 1), (1 / 3, 1), (1 / 3, 1), (1 / 3, 1), (1 / 3, 1), (1 / 3, 1), (4 / 9, 0)]] := by
  decide +kernel

/-- **C179 is violated** with the default configuration. -/
theorem C179_violated : ¬ C179_full (lineF (1 / 2) true) := by
  intro h
  obtain ⟨f, hf, he⟩ := Option.map_eq_some_iff.1 ghost_run
  have hx : exec (lineF (1 / 2) true) ghostCmds (ctor 1 0 []) = .ok f := by
    unfold lineRun at hf
    split at hf
    · rename_i f' hf'
      cases hf
      exact hf'
    · cases hf
  have hm : ∀ (p : Part (PState ℚ (List (Track ℚ 1))) ℚ), f.parts = [p] → (4 / 9, 0) ∉ p.st.m.map fun t => (t.P, t.gm.g.length) := by
    intro p hp hc
    obtain ⟨t, ht, hte⟩ := List.mem_map.1 hc
    have := h 1 0 ghostCmds f one_pos (by simp [Proper, ghostCmds]) (by simp [Draws, ghostCmds]) hx p (by rw [hp]; simp) t ht
    simp only [Prod.mk.injEq] at hte
    exact this (List.eq_nil_of_length_eq_zero hte.2)
  match hparts : f.parts with
  | [] => rw [hparts] at he; simp at he
  | [p] =>
    rw [hparts] at he
    simp only [List.map_cons, List.map_nil, List.cons.injEq, and_true] at he
    refine hm p hparts ?_
    rw [he]
    simp
  | _ :: _ :: _ => rw [hparts] at he; simp at he

/-- A track without Gaussians, of existence probability `P`. -/
def HasGhost (P : K) (ts : List (Track K d)) : Prop := ∃ t ∈ ts, t.P = P ∧ t.gm.n = 0 ∧ t.gm.g = []

theorem merge_nil (maha : Lm K d → Lm K d → K) (t f : K) {m : GMix K d} (hg : m.g = []) (hn : m.n = 0) : ∃ r, merge maha t f m = some r ∧ r.2.g = [] ∧ r.2.n = 0 := by
  refine ⟨(0, { m with sorted := false }), ?_, hg, hn⟩
  unfold merge
  rw [hg]
  rfl

theorem updateMap_ghost {nZ : Nat} {env : CBM.Env K d nZ} (garb : Nat → GMix K d) {ts : List (Track K d)} (h : SolidMap ts) {P : K} (hg : HasGhost P ts)
    {ub : Bool} {t0 : List (Track K d)} {un : List Nat} (hu : CBM.updateMap env garb ts = some (ub, t0, un)) : HasGhost P t0 := by
  obtain ⟨t, ht, h1, h2, h3⟩ := hg
  unfold CBM.updateMap at hu
  split_ifs at hu with h0
  · cases hu
    exact ⟨t, ht, h1, h2, h3⟩
  have hok : ∀ t ∈ ts, CBMProps.TrackOk t := fun t ht => trackOk_of_solid (h t ht).2.2 (h t ht).1 (h t ht).2.1
  obtain ⟨cs, e1, e2, e3⟩ := CBMProps.updateTracks_eq env ts hok
  have hl : ts.length = (cs.map (fun x => CBM.legacy env x.1 x.2)).length := by rw [← e1]; simp
  have hn : nZ = ((List.finRange nZ).map (CBMProps.newTrack env (cs.filterMap (CBM.seenOf env)))).length := by simp
  obtain ⟨ub', kept, f1, -⟩ := CBM.compact_eq garb (cs.map (fun x => CBM.legacy env x.1 x.2)) ((List.finRange nZ).map (CBMProps.newTrack env (cs.filterMap (CBM.seenOf env))))
  rw [← hl, ← hn] at f1
  rw [e3, Option.bind_some, f1] at hu
  cases hu
  rw [← e1] at ht
  obtain ⟨x, hx, rfl⟩ := List.mem_map.1 ht
  have hc := (e2 x hx).2.1
  have hc0 : x.2 = [] := by
    unfold CBM.comps at hc
    rw [h2] at hc
    simpa using hc.symm
  refine ⟨CBM.legacy env x.1 x.2, List.mem_append_left _ (List.mem_map_of_mem hx), ?_, h2, h3⟩
  rw [← h1]
  simp [CBM.legacy, hc0, CBM.trackPd]

theorem prune_nil {srt : List (Gauss K d) → List (Gauss K d)} (t : K) {m : GMix K d} (hg : m.g = []) (hn : m.n = 0) {q : Nat × GMix K d} (h : prune srt t m = some q) :
    q.2.g = [] ∧ q.2.n = 0 := by
  unfold prune at h
  simp only [hg, List.length_nil, Nat.zero_lt_one, if_true] at h
  cases h
  exact ⟨rfl, hn⟩

theorem exec_append (o : Ops X D Z B K) : ∀ (cmds more : List (Cmd X Z K)) (f f1 : Filt X D Z B K), exec o cmds f = .ok f1 → exec o (cmds ++ more) f = exec o more f1 := by
  intro cmds
  induction cmds with
  | nil => intro more f f1 h; cases h; rfl
  | cons c cs ih =>
    intro more f f1 h
    simp only [exec, List.cons_append] at h ⊢
    split at h
    · cases h
    · rename_i f2 h2
      exact ih more f2 f1 h

theorem exec_split {o : Ops X D Z B K} (ho : Reports o) {n : Nat} : ∀ (cmds more : List (Cmd X Z K)) (fr : Bool) (f f1 : Filt X D Z B K), Inv o n fr f → Proper fr (cmds ++ more) →
    exec o cmds f = .ok f1 → Proper fr cmds ∧ ∃ fr', Inv o n fr' f1 ∧ Proper fr' more := by
  intro cmds
  induction cmds with
  | nil => intro more fr f f1 hi hp h; cases h; exact ⟨trivial, fr, hi, hp⟩
  | cons c cs ih =>
    intro more fr f f1 hi hp h
    simp only [exec] at h
    split at h
    · cases h
    · rename_i f2 h2
      cases c with
      | predict move =>
        have hp' : Proper true (cs ++ more) := hp
        obtain ⟨a, b⟩ := ih more true f2 f1 (inv_predict hi h2) hp' h
        exact ⟨a, b⟩
      | update t tp r Zs =>
        obtain ⟨a, b⟩ := ih more _ f2 f1 (inv_update ho hi hp.1 h2) hp.2 h
        exact ⟨⟨hp.1, a⟩, b⟩

theorem draws_append (cmds more : List (Cmd X Z K)) : Draws (cmds ++ more) ↔ Draws cmds ∧ Draws more := by
  induction cmds with
  | nil => simp [Draws]
  | cons c cs ih =>
    cases c with
    | predict move => exact ih
    | update t tp r Zs => simp only [List.cons_append, Draws, ih, and_assoc]

/-- C179: a track without Gaussians that is not below the track pruning threshold stays for ever, with the same existence probability: if every particle has one, every particle has one after any further calls. -/
theorem C179_permanent (cfg : Cfg K) (env : X → (Zs : List Z) → CBM.Env K d Zs.length) (lik : X → List Z → List (Track K d) → K) (inv : X → Z → Lm K d) (lstep : Lm K d → Lm K d)
    (maha : Lm K d → Lm K d → K) {srt : List (Gauss K d) → List (Gauss K d)} (garb garb2 : X → List Z → Nat → GMix K d) (hs : IsSort srt) (he : ∀ x Zs, CBMProps.EnvOk (env x Zs))
    (hl : ∀ x Zs ts, 0 < lik x Zs ts) (hb : 0 ≤ cfg.birthPE ∧ cfg.birthPE < 1) (hp : 0 < cfg.pruneT) (n : Nat) (hn : 0 < n) (x0 : X) (P : K) (hP : cfg.trackT ≤ P)
    (cmds more : List (Cmd X Z K)) (hpr : Proper true (cmds ++ more)) (hd : Draws (cmds ++ more)) (f : Filt X (List (Track K d)) Z Nat K)
    (hf : exec (cbm cfg env lik inv lstep maha srt garb garb2) cmds (ctor n x0 []) = .ok f) (hg : ∀ p ∈ f.parts, HasGhost P p.st.m) :
    ∃ f', exec (cbm cfg env lik inv lstep maha srt garb garb2) (cmds ++ more) (ctor n x0 []) = .ok f' ∧ ∀ p ∈ f'.parts, HasGhost P p.st.m := by
  have ho := C175_reports_cbm cfg env lik inv lstep maha srt garb garb2
  obtain ⟨hp1, fr, hi, hp2⟩ := exec_split ho cmds more true _ f (inv_ctor _ n x0 []) hpr hf
  obtain ⟨hd1, hd2⟩ := (draws_append cmds more).1 hd
  obtain ⟨f0, h0, -, h1⟩ := C178_runs_partial cfg env lik inv lstep maha garb garb2 hs he hl hb hp n hn x0 cmds hp1 hd1
  rw [hf] at h0
  cases h0
  obtain ⟨f', h2, h3⟩ := exec_good ho (G := fun m => SolidMap m ∧ HasGhost P m) (fun x Zs m _ hm => by
      obtain ⟨ub0, t0, un0, ub, ts', a1, -, a3, a4, a5, -⟩ := cbmUpd_eq cfg env maha hs garb garb2 x Zs m (he x Zs) hp hm.1
      obtain ⟨t, ht, b1, b2, b3⟩ := updateMap_ghost (garb x Zs) hm.1 hm.2 a1
      obtain ⟨r, q, c1, c2, c3⟩ := a5 t ht (by rw [b1]; exact hP)
      obtain ⟨r', d1, d2, d3⟩ := merge_nil maha cfg.mergeT cfg.mergeF b3 b2
      rw [c1] at d1
      cases d1
      obtain ⟨e1, e2⟩ := prune_nil _ d2 d3 c2
      exact ⟨_, a3, a4, _, c3, b1, e2, e1⟩) (fun x Zs m _ _ => hl x Zs m)
    (fun x b z m hm => ⟨born_solid hb _ hm.1, by obtain ⟨t, ht, h⟩ := hm.2; exact ⟨t, List.mem_append_left _ ht, h⟩⟩)
    (fun m hm => by
      obtain ⟨m', h, hs', hk⟩ := stillTracks_ok lstep hm.1
      obtain ⟨t, ht, b1, b2, b3⟩ := hm.2
      obtain ⟨t', ht', c1, c2⟩ := hk t ht
      have hg0 : t'.gm.g = [] := by rw [b3, List.map_nil, List.map_eq_nil_iff] at c2; exact c2
      exact ⟨m', h, hs', t', ht', by rw [c1, b1], by rw [(hs' t' ht').2.2.n, hg0]; rfl, hg0⟩) hn more fr f hi (fun p hpp => ⟨(h1 p hpp).1, (mapOk_iff _).1 (h1 p hpp).2, hg p hpp⟩) hp2 hd2
  exact ⟨f', by rw [exec_append _ _ _ _ _ hf]; exact h2, fun p hpp => (h3 p hpp).2.2⟩

/-- The hypotheses can be met: the run of `C179_violated` leaves its only particle with such a track. -/
example : ∃ f, exec (lineF (1 / 2) true) ghostCmds (ctor 1 0 []) = .ok f ∧ ∀ p ∈ f.parts, ∃ t ∈ p.st.m, t.P = 4 / 9 ∧ t.gm.g = [] := by
  have h : (lineRun (1 / 2) true ghostCmds).map (fun f => decide (∀ p ∈ f.parts, ∃ t ∈ p.st.m, t.P = 4 / 9 ∧ t.gm.g.length = 0)) = some true := by decide +kernel
  obtain ⟨f, hf, he⟩ := Option.map_eq_some_iff.1 h
  have hx : exec (lineF (1 / 2) true) ghostCmds (ctor 1 0 []) = .ok f := by
    unfold lineRun at hf
    split at hf
    · rename_i f' hf'
      cases hf
      exact hf'
    · cases hf
  refine ⟨f, hx, fun p hp => ?_⟩
  obtain ⟨t, ht, h1, h2⟩ := (of_decide_eq_true he) p hp
  exact ⟨t, ht, h1, List.eq_nil_of_length_eq_zero h2⟩

/-- For such a track `getMaxGaussian` reads an element of an empty container. -/
theorem C179_unreadable (t : Track K d) (h1 : t.gm.n = 0) (h2 : t.gm.g = []) : getMaxGaussian t.gm = none := by
  unfold getMaxGaussian
  rw [h1, h2]
  rfl

end MBFProps
end RFS
