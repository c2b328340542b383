import Verif.Lemmas.FastRuns
import Verif.Props.MBFilter

/-!
Properties of whole runs of FastSLAM (`Verif.Model.FastRuns`): number and weights of the particles, definedness, weights of the landmarks, bookkeeping of the
particles made of several data association hypotheses.
-/

set_option linter.unusedSectionVars false

namespace RFS
namespace FastRunsProps
open FastSLAM FastRuns
open Hungarian (Mat)
open FastSLAMProps (openRows_length twoEnv Determined C52_update_partial logit)

variable {X Lm : Type}

/-- `drand48()` is in `[0, 1)`, and the threads get through all particles, each once, in any order. -/
def Drawn (cs : List (Cmd X Lm)) : Prop := ∀ s, Cmd.update s ∈ cs → (0 ≤ s.r ∧ s.r < 1) ∧ ∀ n, (s.order n).Perm (List.range n)

theorem exec_inv {cfg : RCfg} {n : Nat} : ∀ (cs : List (Cmd X Lm)) (f f' : Filt X Lm), Drawn cs → Inv n cfg.nMax f → exec cfg cs f = .ok f' → Inv n cfg.nMax f' := by
  intro cs
  induction cs with
  | nil => intro f f' _ h e; cases e; exact h
  | cons c cs ih =>
    intro f f' hd h e
    unfold exec at e
    split at e
    · cases e
    · rename_i f1 h1
      exact ih f1 f' (fun s hs => hd s (List.mem_cons_of_mem _ hs)) (step_inv h c (fun s hs => hd s (by rw [hs]; exact List.mem_cons_self)) h1) e

/-- A run may be cut. -/
theorem exec_append {cfg : RCfg} : ∀ (cs ds : List (Cmd X Lm)) (f f' : Filt X Lm), exec cfg (cs ++ ds) f = .ok f' → ∃ g, exec cfg cs f = .ok g ∧ exec cfg ds g = .ok f' := by
  intro cs
  induction cs with
  | nil => intro ds f f' h; exact ⟨f, rfl, h⟩
  | cons c cs ih =>
    intro ds f f' h
    rw [List.cons_append] at h
    unfold exec at h
    cases hs : step cfg f c with
    | error e => rw [hs] at h; cases h
    | ok f1 =>
      rw [hs] at h
      obtain ⟨g, h1, h2⟩ := ih ds f1 f' h
      exact ⟨g, by unfold exec; rw [hs]; exact h1, h2⟩

theorem exec_one {cfg : RCfg} {c : Cmd X Lm} {f f' : Filt X Lm} (h : exec cfg [c] f = .ok f') : step cfg f c = .ok f' := by
  unfold exec at h
  split at h
  · cases h
  · rename_i g hg
    cases h
    exact hg

/-! ### C192 -/

/-- **C192**: whatever the calls, a filter made with `n > 0` particles has at least `n` of them after every call, and at most the larger of `n` and `nParticlesMax_`, although `update` makes a particle of
every data association hypothesis. -/
theorem C192_number (cfg : RCfg) (n : Nat) (hn : 0 < n) (x0 : X) (b : Bool) (cs : List (Cmd X Lm)) (hd : Drawn cs) (f : Filt X Lm) (h : exec cfg cs (ctor n x0 b) = .ok f) :
    n ≤ f.parts.length ∧ f.parts.length ≤ max n cfg.nMax := by
  have := exec_inv cs _ _ hd (ctor_inv hn cfg.nMax x0 b) h
  exact ⟨this.lo, this.hi⟩

/-- **C192**, when a scan was processed: with resampling there are `n` particles; without it there are not fewer than before and not more than `nParticlesMax_` or `maxNDataAssocHypotheses_` times as many. -/
theorem C192_update (cfg : RCfg) (n : Nat) (hn : 0 < n) (x0 : X) (b : Bool) (cs : List (Cmd X Lm)) (s : Scan X Lm) (hd : Drawn (cs ++ [.update s])) (hZ : s.nZ ≠ 0) (f f' : Filt X Lm)
    (h : exec cfg cs (ctor n x0 b) = .ok f) (h' : update cfg s f = .ok f') :
    (f'.resampled = true → f'.parts.length = n) ∧
    (f'.resampled = false → f.parts.length ≤ f'.parts.length ∧ f'.parts.length ≤ cfg.nMax ∧ f'.parts.length ≤ f.parts.length * cfg.cfg.maxHyp) := by
  have hi := exec_inv cs _ _ (fun s hs => hd s (by simp [hs])) (ctor_inv hn cfg.nMax x0 b) h
  obtain ⟨f1, hm, h1, h2, h3, h4, h5, h6, h7⟩ := update_nonempty hi hZ (hd s (by simp)) h'
  refine ⟨fun hr => (h7 hr).1, fun hr => ?_⟩
  obtain ⟨e1, -⟩ := h6 hr
  refine ⟨by omega, ?_, by omega⟩
  by_contra hc
  unfold resampleMove at h4
  simp only at h4
  rw [if_pos (Or.inl (by omega))] at h4
  split at h4
  · cases h4
  · rename_i P hP
    have := (PFProps.C31_no_resample _ _ _ _ _ _ _ hP).2.1
    simp only [decide_eq_false_iff_not] at this
    omega
  · split at h4
    · cases h4
    · cases h4
      cases hr

/-! ### C193 -/

/-- **C193** (partial): in a run of a filter made with `n > 0` particles, no access to the particles or to the lists of candidates is out of range and resampling is defined: the only thing that can go wrong is `updateMap` of
one particle. Missing: `updateMap` itself (`C193_violated`, and C52, C96) and filters without particles (`C193_violated_empty`). -/
theorem C193_defined_partial (cfg : RCfg) (n : Nat) (hn : 0 < n) (x0 : X) (b : Bool) (cs : List (Cmd X Lm)) (hd : Drawn cs) (e : RErr) (h : exec cfg cs (ctor n x0 b) = .error e) : ∃ e', e = .upd e' := by
  have key : ∀ (cs : List (Cmd X Lm)) (f : Filt X Lm), Drawn cs → Inv n cfg.nMax f → exec cfg cs f = .error e → ∃ e', e = .upd e' := by
    intro cs
    induction cs with
    | nil => intro f _ _ h; cases h
    | cons c cs ih =>
      intro f hd hi h
      have hc : ∀ s, c = .update s → (0 ≤ s.r ∧ s.r < 1) ∧ ∀ n, (s.order n).Perm (List.range n) := fun s hs => hd s (by rw [hs]; exact List.mem_cons_self)
      unfold exec at h
      split at h
      · rename_i e' he
        cases h
        cases c with
        | predict mx ml => cases he
        | update s => exact update_err hi (hc s rfl) e he
      · rename_i f1 h1
        exact ih f1 (fun s hs => hd s (List.mem_cons_of_mem _ hs)) (step_inv hi c hc h1) h
  exact key cs _ hd (ctor_inv hn cfg.nMax x0 b) h

/-- **C193** fails when the first scan has one measurement: the reduction of the table fixes everything, no hypothesis is left and `pi[0]` is written outside its array. -/
theorem C193_violated (cfg : RCfg) (n : Nat) (hn : 0 < n) (x0 : X) (b : Bool) (env : X → Env Lm 1) (murty : ∀ m, Mat ℝ m → List ((Fin m → Fin m) × ℝ)) (prune : List (Lm × ℝ) → List (Lm × ℝ)) (t tp r : ℝ)
    (order : Nat → List Nat) (hord : ∀ n, (order n).Perm (List.range n)) : ∃ e, exec cfg [.update ⟨1, env, murty, prune, t, tp, r, order⟩] (ctor n x0 b : Filt X Lm) = .error (.upd e) := by
  obtain ⟨m, rfl⟩ : ∃ m, n = m + 1 := ⟨n - 1, by omega⟩
  refine ⟨.ub, ?_⟩
  have hp : ∀ i < m + 1, (ctor (m + 1) x0 b : Filt X Lm).parts[i]? = some ⟨⟨x0, []⟩, i, i, 1⟩ := by
    intro i hi
    simp [ctor, PF.addParticles, List.getElem?_range hi]
  have hl : (ctor (m + 1) x0 b : Filt X Lm).parts.length = m + 1 := by simp [ctor, PF.addParticles]
  have hd : hypotheses cfg.cfg 1 murty (table (env x0) cfg.cfg (inRange (env x0) [])) = .ok [] := by
    refine (hypotheses_spec cfg.cfg murty _ fun i j => tableEntry_ge (env x0) cfg.cfg _ i j).1 ((openRows_length _ _).2 fun i i' _ _ => ?_)
    have hi := i.2
    have hi' := i'.2
    have h0 : max (inRange (env x0) ([] : List (Lm × ℝ))).length 1 = 1 := rfl
    exact Fin.ext (by omega)
  have h1 : ∀ f : Filt X Lm, f.parts = (ctor (m + 1) x0 b : Filt X Lm).parts → ∀ i < m + 1, updateOne cfg.cfg ⟨1, env, murty, prune, t, tp, r, order⟩ f i = .error (.upd .ub) := by
    intro f hf i hi
    unfold updateOne
    rw [hf, hp i hi]
    simp only
    rw [hd]
    simp only [List.length_nil, Nat.not_lt_zero, false_and, exists_false, if_false]
    unfold updateMap
    simp only
    rw [hd]
    rfl
  have h2 : update cfg ⟨1, env, murty, prune, t, tp, r, order⟩ (ctor (m + 1) x0 b : Filt X Lm) = .error (.upd .ub) := by
    unfold update
    simp only
    obtain ⟨i, l, hil⟩ : ∃ i l, order (m + 1) = i :: l := by
      cases ho : order (m + 1) with
      | nil => have := (hord (m + 1)).length_eq; rw [ho] at this; simp at this
      | cons i l => exact ⟨i, l, rfl⟩
    have hi : i < m + 1 := List.mem_range.1 ((hord (m + 1)).mem_iff.1 (by rw [hil]; exact List.mem_cons_self))
    rw [if_neg one_ne_zero, hl, hil, List.foldlM_cons, h1 _ (by rfl) i hi]
    rfl
  unfold exec step
  simp only
  rw [h2]

/-- **C193** fails for a filter without particles, which the constructor allows: the first scan makes `resample` read the weight of a particle that does not exist. -/
theorem C193_violated_empty (cfg : RCfg) (x0 : X) (b : Bool) (s : Scan X Lm) (hZ : s.nZ ≠ 0) (hU : cfg.minUpd ≤ 1) (hM : cfg.minMeas ≤ s.nZ) (ht : 0 ≤ s.t) (hord : (s.order 0).Perm (List.range 0)) :
    exec cfg [.update s] (ctor 0 x0 b : Filt X Lm) = .error .sample := by
  have h2 : update cfg s (ctor 0 x0 b : Filt X Lm) = .error .sample := by
    unfold update
    simp only
    rw [if_neg hZ]
    have hp : (ctor 0 x0 b : Filt X Lm).parts = [] := rfl
    rw [hp, List.length_nil, List.perm_nil.1 hord, List.foldlM_nil]
    simp only [pure, Except.pure]
    unfold resampleMove
    simp only
    rw [if_pos (Or.inr ⟨by simpa [ctor] using hU, by simpa [ctor] using hM⟩)]
    have : PF.resample ([] : List (PF.Part (PState X Lm) ℝ)) (ctor 0 x0 b : Filt X Lm).nInit (decide (cfg.nMax < ([] : List (PF.Part (PState X Lm) ℝ)).length)) s.t s.tp s.r = none := by
      unfold PF.resample
      simp only [PF.normalizeWeights, List.map_nil, PF.enough, List.sum_nil, div_zero]
      rw [if_neg (by intro h; linarith [h.2.1])]
      rfl
    rw [this]
  unfold exec step
  simp only
  rw [h2]

/-! ### C194 -/

/-- **C194**: in every run the weights of the particles are positive; after a scan with measurements they are all one if the particles were resampled, and add up to one otherwise. -/
theorem C194_weights (cfg : RCfg) (n : Nat) (hn : 0 < n) (x0 : X) (b : Bool) (cs : List (Cmd X Lm)) (hd : Drawn cs) (f : Filt X Lm) (h : exec cfg cs (ctor n x0 b) = .ok f) :
    (∀ p ∈ f.parts, 0 < p.w) ∧
    ∀ (s : Scan X Lm), cs.getLast? = some (.update s) → s.nZ ≠ 0 → (f.resampled = true → ∀ p ∈ f.parts, p.w = 1) ∧ (f.resampled = false → (f.parts.map PF.Part.w).sum = 1) := by
  refine ⟨(exec_inv cs _ _ hd (ctor_inv hn cfg.nMax x0 b) h).w, fun s hs hZ => ?_⟩
  obtain ⟨ds, rfl⟩ := List.getLast?_eq_some_iff.1 hs
  obtain ⟨g, h1, h2⟩ := exec_append _ _ _ _ h
  have hi := exec_inv ds _ _ (fun s hs => hd s (by simp [hs])) (ctor_inv hn cfg.nMax x0 b) h1
  obtain ⟨f1, -, -, -, -, -, -, h6, h7⟩ := update_nonempty hi hZ (hd s (by simp)) (exec_one h2)
  exact ⟨fun hr p hp => ((h7 hr).2.2.2 p hp).1, fun hr => (h6 hr).2.2.2.2.1⟩

/-! ### C196 -/

/-- The results of a scan: pose, weight, map and candidates of the particle of every data association hypothesis of every particle. `out i` is what `updateMap` returns for particle `i`, from its weight, its map and its own
list of candidates. -/
structure Scanned (cfg : RCfg) (s : Scan X Lm) (f : Filt X Lm) (res : List ((X × ℝ × List (Lm × ℝ)) × List (Cand Lm))) : Prop where
  made : ∃ out : Nat → List (Particle Lm × List (Cand Lm)),
    (∀ (i : Nat) p, f.parts[i]? = some p → ∃ c : Nat → List (Cand Lm), c 0 = (f.cands[i]?).getD [] ∧ updateMap (s.env p.st.x) cfg.cfg s.murty s.prune f.resampled ⟨p.w, p.st.map⟩ c = .ok (out i)) ∧
    res = f.parts.zipIdx.flatMap fun q => (out q.2).map fun o => ((q.1.st.x, o.1.w, o.1.map), o.2)

/-- The particles with the candidates at their index. -/
def withCands (f : Filt X Lm) : List ((X × ℝ × List (Lm × ℝ)) × List (Cand Lm)) := f.parts.zipIdx.map fun q => ((q.1.st.x, q.1.w, q.1.st.map), (f.cands[q.2]?).getD [])

theorem scanned {cfg : RCfg} {s : Scan X Lm} {f f1 : Filt X Lm} (hm : Mid cfg.cfg s (begun cfg s f) f.parts.length f1) : ∃ res, Scanned cfg s f res ∧ (withCands f1).Perm res := by
  obtain ⟨A, C, outs, h1, h2, h3, h4, h5⟩ := hm.parts
  have hd : (begun cfg s f).parts.drop f.parts.length = [] := by simp [begun]
  rw [hd, List.append_nil] at h1
  have e1 : (begun cfg s f).parts.take f.parts.length = f.parts := by simp [begun]
  have e2 : (begun cfg s f).parts.zipIdx.take f.parts.length = f.parts.zipIdx := by
    rw [List.take_of_length_le (by simp [begun])]
    rfl
  rw [e1] at h4
  rw [e2] at h3
  have hl : outs.length = f.parts.length := by rw [← h3.length_eq]; simp
  refine ⟨_, ⟨fun i => (outs[i]?).getD [], ?_, rfl⟩, ?_⟩
  · intro i p hp
    have hi := (List.getElem?_eq_some_iff.1 hp).1
    have hip := (List.getElem?_eq_some_iff.1 hp).2
    obtain ⟨cs, c1, c2, -⟩ := (List.forall₂_iff_get.1 h3).2 i (by simpa using hi) (by omega)
    simp only [List.get_eq_getElem, List.getElem_zipIdx, Nat.zero_add, hip] at c1 c2
    refine ⟨cs, ?_, ?_⟩
    · rw [c1]; exact grow_get _ _ _
    · simp only
      rw [List.getElem?_eq_getElem (by omega), Option.getD_some]; exact c2
  · have e3 : withCands f1 = (A.zipIdx ++ C.zipIdx (begun cfg s f).parts.length).map (view2 f1.cands) := by
      unfold withCands
      rw [h1, List.zipIdx_append, Nat.zero_add, h2]
      rfl
    rw [e3]
    refine h4.trans (List.Perm.of_eq ?_)
    rw [List.flatMap_def]
    congr 1
    refine List.ext_getElem (by simp [hl]) fun i i1 i2 => ?_
    rw [List.getElem_zipWith, List.getElem_map, List.getElem_zipIdx]
    rw [List.length_zipWith] at i1
    simp only [Nat.zero_add]
    rw [List.getElem?_eq_getElem (by omega), Option.getD_some]
    rfl

theorem mem_withCands {f : Filt X Lm} {q : PF.Part (PState X Lm) ℝ} (hq : q ∈ f.parts) : ∃ c, (view q, c) ∈ withCands f := by
  obtain ⟨i, hi, rfl⟩ := List.getElem_of_mem hq
  exact ⟨_, List.mem_map.2 ⟨(f.parts[i], i), List.mem_zipIdx_iff_getElem?.2 (List.getElem?_eq_getElem hi), rfl⟩⟩

/-- **C196**: after a scan without resampling the particles are, in some order, exactly the results of `updateMap` on every particle - one for every data association hypothesis, each with its pose, its map, its weight divided
by the sum of all, and its candidates; none is lost, doubled or mixed with another. With resampling every particle has pose and map of one of the results. -/
theorem C196_bookkeeping (cfg : RCfg) (n : Nat) (hn : 0 < n) (x0 : X) (b : Bool) (cs : List (Cmd X Lm)) (s : Scan X Lm) (hd : Drawn (cs ++ [.update s])) (hZ : s.nZ ≠ 0) (f f' : Filt X Lm)
    (h : exec cfg cs (ctor n x0 b) = .ok f) (h' : update cfg s f = .ok f') :
    ∃ res, Scanned cfg s f res ∧
      (f'.resampled = false → (withCands f').Perm (res.map fun a => ((a.1.1, a.1.2.1 / (res.map fun a => a.1.2.1).sum, a.1.2.2), a.2))) ∧
      (f'.resampled = true → ∀ p ∈ f'.parts, ∃ a ∈ res, p.st.x = a.1.1 ∧ p.st.map = a.1.2.2) := by
  have hi := exec_inv cs _ _ (fun s hs => hd s (by simp [hs])) (ctor_inv hn cfg.nMax x0 b) h
  obtain ⟨f1, hm, h1, h2, h3, h4, h5, h6, h7⟩ := update_nonempty hi hZ (hd s (by simp)) h'
  obtain ⟨res, hres, hp⟩ := scanned hm
  refine ⟨res, hres, fun hr => ?_, fun hr p hpm => ?_⟩
  · obtain ⟨e0, -, -, ec, -, e⟩ := h6 hr
    have hsum : (res.map fun a => a.1.2.1).sum = (f1.parts.map PF.Part.w).sum := by
      rw [← (hp.map fun a => a.1.2.1).sum_eq]
      congr 1
      refine List.ext_getElem (by simp [withCands]) fun i i1 i2 => ?_
      simp [withCands]
    rw [hsum]
    have e' : withCands f' = (withCands f1).map fun a => ((a.1.1, a.1.2.1 / (f1.parts.map PF.Part.w).sum, a.1.2.2), a.2) := by
      refine List.ext_getElem (by simp [withCands, e0]) fun i i1 i2 => ?_
      have i3 : i < f'.parts.length := by simpa [withCands] using i1
      have i4 : i < f1.parts.length := by omega
      have hv : (f'.parts.map view)[i]'(by simpa using i3) = (f1.parts.map fun p => (p.st.x, p.w / (f1.parts.map PF.Part.w).sum, p.st.map))[i]'(by simpa using i4) := by simp only [e]
      simp only [List.getElem_map, view] at hv
      simp only [withCands, List.getElem_map, List.getElem_zipIdx, Nat.zero_add, ec, hv]
    rw [e']
    exact hp.map _
  · obtain ⟨q, hq, hst⟩ := ((h7 hr).2.2.2 p hpm).2
    obtain ⟨c, hc⟩ := mem_withCands hq
    refine ⟨_, hp.mem_iff.1 hc, ?_, ?_⟩ <;> simp [view, hst]

/-- **C196**, `predict`: particle `i` and its landmarks move by their own motion; weights, log-odds, candidates and counters stay. -/
theorem C196_predict (cfg : RCfg) (mx : Nat → X → X) (ml : Lm → Lm) (f : Filt X Lm) : ∃ f', step cfg f (.predict mx ml) = .ok f' ∧ f'.parts.length = f.parts.length ∧ f'.cands = f.cands ∧ f'.nUpd = f.nUpd ∧
    f'.nMeas = f.nMeas ∧ f'.resampled = f.resampled ∧ ∀ (i : Nat) p, f.parts[i]? = some p → ∃ p', f'.parts[i]? = some p' ∧ p'.st.x = mx i p.st.x ∧ p'.w = p.w ∧ p'.st.map.map Prod.snd = p.st.map.map Prod.snd ∧
      p'.st.map.map Prod.fst = (p.st.map.map Prod.fst).map ml := by
  refine ⟨_, rfl, by simp, rfl, rfl, rfl, rfl, fun i p hp => ⟨{ p with st := ⟨mx i p.st.x, p.st.map.map fun c => (ml c.1, c.2)⟩ }, ?_, rfl, rfl, ?_, ?_⟩⟩
  · simp [List.getElem?_map, List.getElem?_zipIdx, hp]
  · simp only [List.map_map]; rfl
  · simp only [List.map_map]; rfl

/-- **C196**, empty scans: only the count of updates changes (and `landmarkCandidates_` may grow). -/
theorem C196_empty (cfg : RCfg) (s : Scan X Lm) (hZ : s.nZ = 0) (f : Filt X Lm) : ∃ f', update cfg s f = .ok f' ∧ f'.parts = f.parts ∧ f'.nUpd = f.nUpd + 1 ∧ f'.nMeas = f.nMeas ∧ f'.resampled = f.resampled ∧
    ∀ i : Nat, (f'.cands[i]?).getD [] = (f.cands[i]?).getD [] :=
  ⟨_, update_empty hZ, rfl, rfl, rfl, rfl, fun _ => grow_get _ _ _⟩

/-- **C196**, counters: after a scan with measurements they count updates and measurements since the last resampling. -/
theorem C196_counters (cfg : RCfg) (n : Nat) (hn : 0 < n) (x0 : X) (b : Bool) (cs : List (Cmd X Lm)) (s : Scan X Lm) (hd : Drawn (cs ++ [.update s])) (hZ : s.nZ ≠ 0) (f f' : Filt X Lm)
    (h : exec cfg cs (ctor n x0 b) = .ok f) (h' : update cfg s f = .ok f') :
    (f'.resampled = false → f'.nUpd = f.nUpd + 1 ∧ f'.nMeas = f.nMeas + s.nZ) ∧ (f'.resampled = true → f'.nUpd = 0 ∧ f'.nMeas = 0) := by
  have hi := exec_inv cs _ _ (fun s hs => hd s (by simp [hs])) (ctor_inv hn cfg.nMax x0 b) h
  obtain ⟨f1, hm, h1, h2, h3, h4, h5, h6, h7⟩ := update_nonempty hi hZ (hd s (by simp)) h'
  exact ⟨fun hr => ⟨(h6 hr).2.1.trans hm.nU, (h6 hr).2.2.1.trans hm.nM⟩, fun hr => ⟨(h7 hr).2.1, (h7 hr).2.2.1⟩⟩

theorem resampled_iff {cfg : RCfg} {s : Scan X Lm} {f f' : Filt X Lm} (h : resampleMove cfg s f = .ok f') : f'.resampled = true ↔
    cfg.nMax < f.parts.length ∨ (cfg.minUpd ≤ f.nUpd ∧ cfg.minMeas ≤ f.nMeas ∧ ¬ PF.enough (PF.normalizeWeights f.parts) s.t s.tp) := by
  unfold resampleMove at h
  simp only at h
  split at h
  · rename_i hdue
    split at h
    · cases h
    · rename_i P hP
      obtain ⟨-, h1, h2⟩ := PFProps.C31_no_resample _ _ _ _ _ _ _ hP
      cases h
      simp only [decide_eq_false_iff_not] at h1
      simp [h1, h2]
    · rename_i P hP
      split at h
      · cases h
      · cases h
        simp only [true_iff]
        by_cases hm : cfg.nMax < f.parts.length
        · exact Or.inl hm
        · refine Or.inr ⟨(hdue.resolve_left hm).1, (hdue.resolve_left hm).2, fun he => ?_⟩
          unfold PF.resample at hP
          simp only at hP
          rw [if_pos ⟨by simpa using hm, he⟩] at hP
          simp at hP
  · rename_i hdue
    cases h
    push Not at hdue
    simp only [Bool.false_eq_true, false_iff]
    push Not
    exact ⟨hdue.1, fun a b => absurd b (by have := hdue.2 a; omega)⟩

/-- **C196**, decision: the particles are resampled if there are more than `nParticlesMax_`, or if enough updates and measurements have passed since the last time and the effective number of particles is not above both thresholds. -/
theorem C196_decision (cfg : RCfg) (n : Nat) (hn : 0 < n) (x0 : X) (b : Bool) (cs : List (Cmd X Lm)) (s : Scan X Lm) (hd : Drawn (cs ++ [.update s])) (hZ : s.nZ ≠ 0) (f f' : Filt X Lm)
    (h : exec cfg cs (ctor n x0 b) = .ok f) (h' : update cfg s f = .ok f') :
    ∃ res, Scanned cfg s f res ∧ (f'.resampled = true ↔ cfg.nMax < res.length ∨ (cfg.minUpd ≤ f.nUpd + 1 ∧ cfg.minMeas ≤ f.nMeas + s.nZ ∧
      ¬ (s.t < MBFProps.effective (res.map fun a => a.1.2.1) ∧ s.tp < MBFProps.effective (res.map fun a => a.1.2.1) / res.length))) := by
  have hi := exec_inv cs _ _ (fun s hs => hd s (by simp [hs])) (ctor_inv hn cfg.nMax x0 b) h
  obtain ⟨f1, hm, h1, h2, h3, h4, h5, h6, h7⟩ := update_nonempty hi hZ (hd s (by simp)) h'
  obtain ⟨res, hres, hp⟩ := scanned hm
  have hlen : f1.parts.length = res.length := by rw [← hp.length_eq]; simp [withCands]
  have hw : ((f1.parts.map PF.Part.w)).Perm (res.map fun a => a.1.2.1) := by
    refine List.Perm.trans (List.Perm.of_eq ?_) (hp.map fun a => a.1.2.1)
    refine List.ext_getElem (by simp [withCands]) fun i i1 i2 => ?_
    simp [withCands]
  have heff : MBFProps.effective (f1.parts.map PF.Part.w) = MBFProps.effective (res.map fun a => a.1.2.1) := by
    unfold MBFProps.effective
    rw [hw.sum_eq, (hw.map _).sum_eq]
  refine ⟨res, hres, ?_⟩
  rw [resampled_iff h4, MBFProps.enough_iff, heff, hlen, hm.nU, hm.nM]
  rfl

/-! ### C195 -/

theorem result_map {cfg : RCfg} {s : Scan X Lm} {f : Filt X Lm} {res} (h : Scanned cfg s f res) (hn : cfg.cfg.pruneMeas ≤ s.nZ) :
    ∀ a ∈ res, ∃ m, ∀ x ∈ a.1.2.2, x ∈ s.prune m ∨ ∃ k : Nat, x.2 = Real.log (cfg.cfg.prior / (1 - cfg.cfg.prior)) * k := by
  obtain ⟨out, h1, rfl⟩ := h.made
  intro a ha
  obtain ⟨q, hq, ha⟩ := List.mem_flatMap.1 ha
  obtain ⟨o, ho, rfl⟩ := List.mem_map.1 ha
  obtain ⟨c, -, hc⟩ := h1 q.2 q.1 (List.mem_zipIdx_iff_getElem?.1 hq)
  have : ∃ das, hypotheses cfg.cfg s.nZ s.murty (table (s.env q.1.st.x) cfg.cfg (inRange (s.env q.1.st.x) q.1.st.map)) = .ok das := by
    cases hg : hypotheses cfg.cfg s.nZ s.murty (table (s.env q.1.st.x) cfg.cfg (inRange (s.env q.1.st.x) q.1.st.map)) with
    | error e => unfold updateMap at hc; simp only at hc; rw [hg] at hc; cases hc
    | ok das => exact ⟨das, rfl⟩
  obtain ⟨das, hd⟩ := this
  obtain ⟨w, da, c', -, hu⟩ := (updateMap_facts (p := ⟨q.1.w, q.1.st.map⟩) hd hc).2.2 o ho
  exact hypUpdate_map hu hn

/-- **C195** (partial): if every scan with measurements has at least `minMeasurementsBeforePrune` (`pruneMeas`) of them, `prune` keeps no landmark below the threshold `thr ≤ 0` and the prior probability of existence is at least one
half, then no landmark of any particle is ever below the threshold. Missing: smaller priors (`C195_violated`) and scans with fewer measurements, which do not prune. -/
theorem C195_threshold_partial (cfg : RCfg) (thr : ℝ) (hthr : thr ≤ 0) (hp : 1 / 2 ≤ cfg.cfg.prior) (hp1 : cfg.cfg.prior < 1) (n : Nat) (hn : 0 < n) (x0 : X) (b : Bool) (cs : List (Cmd X Lm)) (hd : Drawn cs)
    (hs : ∀ s, Cmd.update s ∈ cs → (s.nZ = 0 ∨ cfg.cfg.pruneMeas ≤ s.nZ) ∧ ∀ m, ∀ x ∈ s.prune m, thr ≤ x.2) (f : Filt X Lm) (h : exec cfg cs (ctor n x0 b) = .ok f) :
    ∀ p ∈ f.parts, ∀ x ∈ p.st.map, thr ≤ x.2 := by
  have hlog : 0 ≤ Real.log (cfg.cfg.prior / (1 - cfg.cfg.prior)) := Real.log_nonneg (by rw [le_div_iff₀ (by linarith)]; linarith)
  have key : ∀ (cs : List (Cmd X Lm)) (f f' : Filt X Lm), Drawn cs → (∀ s, Cmd.update s ∈ cs → (s.nZ = 0 ∨ cfg.cfg.pruneMeas ≤ s.nZ) ∧ ∀ m, ∀ x ∈ s.prune m, thr ≤ x.2) → Inv n cfg.nMax f →
      (∀ p ∈ f.parts, ∀ x ∈ p.st.map, thr ≤ x.2) → exec cfg cs f = .ok f' → ∀ p ∈ f'.parts, ∀ x ∈ p.st.map, thr ≤ x.2 := by
    intro cs
    induction cs with
    | nil => intro f f' _ _ _ h e; cases e; exact h
    | cons c cs ih =>
      intro f f' hd hs hi hf e
      have hc : ∀ s, c = .update s → (0 ≤ s.r ∧ s.r < 1) ∧ ∀ n, (s.order n).Perm (List.range n) := fun s hs => hd s (by rw [hs]; exact List.mem_cons_self)
      unfold exec at e
      split at e
      · cases e
      · rename_i f1 h1
        refine ih f1 f' (fun s hs => hd s (List.mem_cons_of_mem _ hs)) (fun s h => hs s (List.mem_cons_of_mem _ h)) (step_inv hi c hc h1) ?_ e
        cases c with
        | predict mx ml =>
          cases h1
          intro p hp x hx
          obtain ⟨q, hq, rfl⟩ := List.mem_map.1 hp
          obtain ⟨y, hy, rfl⟩ := List.mem_map.1 hx
          exact hf q.1 (List.fst_mem_of_mem_zipIdx hq) y hy
        | update s =>
          obtain ⟨hs1, hs2⟩ := hs s List.mem_cons_self
          have h1' : update cfg s f = .ok f1 := h1
          by_cases hZ : s.nZ = 0
          · rw [update_empty hZ] at h1'
            cases h1'
            exact hf
          · obtain ⟨g, hm, g1, g2, g3, g4, g5, g6, g7⟩ := update_nonempty hi hZ (hc s rfl) h1'
            obtain ⟨res, hres, hperm⟩ := scanned hm
            have hg : ∀ q ∈ g.parts, ∀ x ∈ q.st.map, thr ≤ x.2 := by
              intro q hq x hx
              obtain ⟨c, hc⟩ := mem_withCands hq
              obtain ⟨m, hm'⟩ := result_map hres (hs1.resolve_left hZ) _ (hperm.mem_iff.1 hc)
              rcases hm' x hx with hx | ⟨k, hk⟩
              · exact hs2 m x hx
              · rw [hk]
                exact hthr.trans (mul_nonneg hlog (Nat.cast_nonneg k))
            intro p hp x hx
            cases hr : f1.resampled with
            | true =>
              obtain ⟨q, hq, hst⟩ := ((g7 hr).2.2.2 p hp).2
              rw [hst] at hx
              exact hg q hq x hx
            | false =>
              have e6 := (g6 hr).2.2.2.2.2
              have : view p ∈ f1.parts.map view := List.mem_map_of_mem hp
              rw [e6] at this
              obtain ⟨q, hq, hv⟩ := List.mem_map.1 this
              have hmap : p.st.map = q.st.map := (congrArg (fun a => a.2.2) hv).symm
              rw [hmap] at hx
              exact hg q hq x hx
  refine key cs _ f hd hs (ctor_inv hn cfg.nMax x0 b) ?_ h
  intro p hp x hx
  simp only [ctor, PF.addParticles, List.nil_append, List.mem_map, List.mem_range] at hp
  obtain ⟨i, hi, rfl⟩ := hp
  simp at hx

/-! ### A run -/

/-- One particle, a first scan with two measurements, one hypothesis; prior probability of existence `a`. -/
noncomputable def oneCfg (a : ℝ) : RCfg := ⟨⟨a, -1, 1, 1, 3, 1, 0, 5, 100, 1⟩, 1, 1, 10⟩

/-- `prune` with threshold zero. -/
noncomputable def cut (l : List (Unit × ℝ)) : List (Unit × ℝ) := open Classical in l.filter fun x => decide (0 ≤ x.2)

noncomputable def oneScan : Scan Unit Unit := ⟨2, fun _ => twoEnv, fun _ _ => [(id, 0)], cut, 0, 0, 0, List.range⟩

theorem oneRun (a : ℝ) (h0 : 0 < a) (h1 : a < 1) : ∃ f : Filt Unit Unit, exec (oneCfg a) [.update oneScan] (ctor 1 () false) = .ok f ∧
    ∀ p ∈ f.parts, p.st.map = [((), Real.log (a / (1 - a))), ((), Real.log (a / (1 - a)))] := by
  have hok : Ok twoEnv (oneCfg a).cfg := ⟨h0, h1, by intro _; norm_num [twoEnv], by intro _; norm_num [twoEnv], by norm_num [twoEnv]⟩
  have hm2 : max (inRange twoEnv ([] : List (Unit × ℝ))).length 2 = 2 := rfl
  have hopen : 2 ≤ (openRows (table twoEnv (oneCfg a).cfg (inRange twoEnv [])) (oneCfg a).cfg.minLL).length := by
    by_contra hc
    have h1 := (openRows_length _ _).1 (show (openRows (table twoEnv (oneCfg a).cfg (inRange twoEnv [])) (oneCfg a).cfg.minLL).length ≤ 1 by omega)
    have hnd : ∀ i j, ¬ Determined (table twoEnv (oneCfg a).cfg (inRange twoEnv [])) (oneCfg a).cfg.minLL i j := fun i j hd => lt_irrefl _ hd.1
    have := h1 ⟨0, by omega⟩ ⟨1, by omega⟩ (hnd _) (hnd _)
    simp at this
  obtain ⟨Cr, score, ext, e1, -⟩ := (hypotheses_spec (nZ := 2) (oneCfg a).cfg (fun _ _ => [(id, 0)]) (table twoEnv (oneCfg a).cfg (inRange twoEnv [])) fun i j => tableEntry_ge twoEnv _ _ i j).2 hopen
  have hkept : ∀ (m : Nat) (C : Mat ℝ m), kept (oneCfg a).cfg ([(id, 0)] : List ((Fin m → Fin m) × ℝ)) = [id] := by
    intro m C
    simp [kept, oneCfg]
  rw [hkept _ Cr] at e1
  obtain ⟨out, o1, o2, o3⟩ := C52_update_partial twoEnv (oneCfg a).cfg hok rfl (fun _ _ => [(id, 0)]) cut false ⟨1, []⟩ (fun _ => []) (fun _ => rfl) _ e1 (by simp)
  obtain ⟨map', logW, unused, s1, s2⟩ := o3 0 (ext id) (by simp)
  have hout : out = [(⟨1 * Real.exp logW, [((), Real.log (a / (1 - a))), ((), Real.log (a / (1 - a)))]⟩, [])] := by
    have hl : out.length = 1 := by rw [o2]; simp
    obtain ⟨o, rfl⟩ := List.length_eq_one_iff.1 hl
    have hmap : map' = [] := List.length_eq_zero_iff.1 (by rw [s1.length]; rfl)
    have hun : unused = [0, 1] := by
      have hall : ∀ z, z ∈ unused := fun z => (s1.unused.2 z).2 fun m => absurd m.2 (by simp [inRange])
      have hp := s1.unused.1
      have : unused.Perm (List.finRange 2) := (List.perm_ext_iff_of_nodup (hp.imp fun h => ne_of_lt h) (List.nodup_finRange 2)).2 fun z => by simp [hall z]
      refine (this.eq_of_pairwise (le := (· < ·)) (fun a b _ _ h1 h2 => absurd (h1.trans h2) (lt_irrefl _)) hp ?_).trans rfl
      decide
    rw [hmap, hun] at s2
    have hcut : cut [] = [] := rfl
    simp only [List.getElem?_cons_zero, Option.some.injEq, hcut, ite_self, List.nil_append] at s2
    rw [s2]
    simp [logit, oneCfg, twoEnv]
    rfl
  have hu : ∀ f : Filt Unit Unit, f.parts = [⟨⟨(), []⟩, 0, 0, 1⟩] → f.cands = [[]] → f.resampled = false → updateOne (oneCfg a).cfg oneScan f 0 =
      .ok { f with parts := putParts 0 1 out [⟨⟨(), []⟩, 0, 0, 1⟩], cands := putCands 0 1 out [[]] } := by
    intro f hf hc hr
    unfold updateOne
    rw [hf, hc, hr, List.getElem?_cons_zero]
    simp only [oneScan]
    rw [e1]
    simp only [List.map_cons, List.map_nil, List.length_singleton, Nat.sub_self, Nat.add_zero]
    rw [if_neg (by rintro ⟨h, hh, hb⟩; obtain rfl : h = 0 := (by omega); simp [slot] at hb)]
    have : (fun h => (([[]] : List (List (Cand Unit)))[slot 0 1 h]?).getD []) = fun _ => [] := by
      funext h
      cases hs : ([[]] : List (List (Cand Unit)))[slot 0 1 h]? with
      | none => rfl
      | some c =>
        have := List.mem_of_getElem? hs
        simpa using this
    rw [this, o1]
    simp [FastRuns.split]
  have hi : Inv 1 (oneCfg a).nMax (ctor 1 () false : Filt Unit Unit) := ctor_inv one_pos _ _ _
  have hfold : ∃ f1, (List.range (ctor 1 () false : Filt Unit Unit).parts.length).foldlM (updateOne (oneCfg a).cfg oneScan) (begun (oneCfg a) oneScan (ctor 1 () false)) = .ok f1 ∧
      ∀ p ∈ f1.parts, p.st.map = [((), Real.log (a / (1 - a))), ((), Real.log (a / (1 - a)))] := by
    have hpc : (ctor 1 () false : Filt Unit Unit).parts = [⟨⟨(), []⟩, 0, 0, 1⟩] := by simp [ctor, PF.addParticles]
    have hb : (begun (oneCfg a) oneScan (ctor 1 () false : Filt Unit Unit)).parts = [⟨⟨(), []⟩, 0, 0, 1⟩] := hpc
    have hcb : (begun (oneCfg a) oneScan (ctor 1 () false : Filt Unit Unit)).cands = [[]] := by
      unfold begun
      simp only [hpc, List.length_singleton, oneCfg]
      simp [ctor, grow]
    rw [hpc, List.length_singleton, List.range_one, List.foldlM_cons, hu _ hb hcb rfl]
    refine ⟨_, rfl, ?_⟩
    rw [hout]
    intro p hp
    simp [putParts, slot] at hp
    rw [hp]
  obtain ⟨f1, hf1, hmap⟩ := hfold
  obtain ⟨hm, c1, c2, c3, c4, c5, c6⟩ := loop_facts hi (fun _ => List.Perm.refl _) hf1
  obtain ⟨g, g1, g2, g3, g4⟩ := resampleMove_spec (cfg := oneCfg a) (s := oneScan) (f := f1) (n := 1) ⟨le_rfl, one_pos⟩ one_pos c4 (by have := hi.lo; omega) c5 c6 c3
  have hupd : update (oneCfg a) oneScan (ctor 1 () false : Filt Unit Unit) = .ok g := by
    unfold update
    simp only
    rw [if_neg (by simp [oneScan])]
    have hf1' := hf1
    unfold begun at hf1'
    rw [show oneScan.order = List.range from rfl]
    rw [hf1']
    exact g1
  refine ⟨g, by unfold exec step; simp only; rw [hupd]; rfl, ?_⟩
  intro p hp
  cases hr : g.resampled with
  | true =>
    obtain ⟨q, hq, hst⟩ := ((g4 hr).2.2.2 p hp).2
    rw [hst]
    exact hmap q hq
  | false =>
    have : view p ∈ g.parts.map view := List.mem_map_of_mem hp
    rw [(g3 hr).2.2.2.2.2] at this
    obtain ⟨q, hq, hv⟩ := List.mem_map.1 this
    have : p.st.map = q.st.map := (congrArg (fun a => a.2.2) hv).symm
    rw [this]
    exact hmap q hq

/-- **C195** fails for a prior below one half: the new landmarks of the first scan, which prunes with threshold zero, are below the threshold. -/
theorem C195_violated (a : ℝ) (h0 : 0 < a) (h1 : a < 1 / 2) : ∃ f : Filt Unit Unit, exec (oneCfg a) [.update oneScan] (ctor 1 () false) = .ok f ∧ (oneCfg a).cfg.prior = a ∧
    (oneCfg a).cfg.pruneMeas ≤ oneScan.nZ ∧ (∀ m, ∀ x ∈ oneScan.prune m, 0 ≤ x.2) ∧ ∃ p ∈ f.parts, p.st.map ≠ [] ∧ ∀ x ∈ p.st.map, x.2 < 0 := by
  obtain ⟨f, hf, hmap⟩ := oneRun a h0 (by linarith)
  have hd : Drawn [Cmd.update oneScan] := by
    intro s hs
    have : s = oneScan := by simpa using hs
    rw [this]
    exact ⟨⟨le_rfl, one_pos⟩, fun _ => List.Perm.refl _⟩
  have hlen := (C192_number (oneCfg a) 1 one_pos () false _ hd f hf).1
  refine ⟨f, hf, rfl, by simp [oneCfg, oneScan], ?_, ?_⟩
  · intro m x hx
    simp only [oneScan, cut, List.mem_filter, decide_eq_true_eq] at hx
    exact hx.2
  · have hp : f.parts[0] ∈ f.parts := List.getElem_mem (by omega)
    refine ⟨f.parts[0], hp, by rw [hmap _ hp]; simp, ?_⟩
    rw [hmap _ hp]
    have : Real.log (a / (1 - a)) < 0 := Real.log_neg (by have : 0 < 1 - a := by linarith
                                                          positivity) (by rw [div_lt_one (by linarith)]; linarith)
    intro x hx
    simp at hx
    rw [hx]
    exact this

/-- The hypotheses of `C192_number`, `C193_defined_partial`, `C194_weights`, `C195_threshold_partial` and `C196_bookkeeping` can be met. -/
example : ∃ f : Filt Unit Unit, exec (oneCfg (1 / 2)) [.update oneScan] (ctor 1 () false) = .ok f ∧ Drawn [Cmd.update oneScan] ∧ oneScan.nZ ≠ 0 ∧ 1 / 2 ≤ (oneCfg (1 / 2)).cfg.prior ∧
    (∀ s, Cmd.update s ∈ [Cmd.update oneScan] → (s.nZ = 0 ∨ (oneCfg (1 / 2)).cfg.pruneMeas ≤ s.nZ) ∧ ∀ m, ∀ x ∈ s.prune m, 0 ≤ x.2) ∧ ∀ p ∈ f.parts, p.st.map ≠ [] := by
  obtain ⟨f, hf, hmap⟩ := oneRun (1 / 2) (by norm_num) (by norm_num)
  refine ⟨f, hf, ?_, by simp [oneScan], le_rfl, ?_, fun p hp => by rw [hmap p hp]; simp⟩
  · intro s hs
    have : s = oneScan := by simpa using hs
    rw [this]
    exact ⟨⟨le_rfl, one_pos⟩, fun _ => List.Perm.refl _⟩
  · intro s hs
    have : s = oneScan := by simpa using hs
    rw [this]
    refine ⟨Or.inr (by simp [oneCfg, oneScan]), ?_⟩
    intro m x hx
    simp only [oneScan, cut, List.mem_filter, decide_eq_true_eq] at hx
    exact hx.2

end FastRunsProps
end RFS
