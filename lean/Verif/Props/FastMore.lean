import Verif.Model.FastMore
import Verif.Props.FastThreads

/-!
Property C246: `FastSLAM::update` run by more threads than there were at construction.
-/

set_option linter.unusedSectionVars false

namespace RFS
namespace FastMoreProps
open FastSLAM FastRuns FastThreads FastRunsProps FastThreadsProps
open FastSLAMProps (two_hyp)

variable {X Lm : Type}

theorem tickT_eq (cfg : Cfg) (s : Scan X Lm) (nK : Nat) (owner : Nat → Nat) (c : Conc X Lm s.nZ) (i : Nat) (h : owner i < nK) : tickT cfg s nK owner c i = tick cfg s c i := by
  unfold tickT tick
  cases c.job i with
  | none => rfl
  | some jb =>
    obtain ⟨n, x, lms, rest, k⟩ := jb
    cases rest with
    | nil => rfl
    | cons da rest => simp only; rw [if_neg (by omega)]

theorem runT_eq (cfg : Cfg) (s : Scan X Lm) (nK : Nat) (owner : Nat → Nat) : ∀ (σ : List Nat) (c : Conc X Lm s.nZ), (∀ i ∈ σ, owner i < nK) → runT cfg s nK owner σ c = run cfg s σ c := by
  intro σ
  induction σ with
  | nil => intro c _; rfl
  | cons i σ ih =>
    intro c h
    unfold runT run
    rw [List.foldlM_cons, List.foldlM_cons, tickT_eq cfg s nK owner c i (h i (by simp))]
    cases tick cfg s c i with
    | error e => rfl
    | ok d => exact ih d fun j hj => h j (by simp [hj])

/-- **C246**, the full statement: whatever thread runs which iteration, and however many Kalman filters the constructor made, no step of the loop accesses anything out of range. -/
def AnyThreads (X Lm : Type) : Prop := ∀ (cfg : RCfg) (n : Nat) (s : Scan X Lm) (nK : Nat) (owner : Nat → Nat) (σ : List Nat) (f : Filt X Lm), 0 < nK → Inv n cfg.nMax f → (∀ j ∈ σ, j < f.parts.length) →
  updateT cfg s nK owner σ f ≠ .error .index

/-- **C246** (partial): if no more threads run the loop than there were at construction, `update` does what it does without regard to the filters of the threads (so C204 and C205 apply), whichever thread runs which
iteration. Missing: more threads (`C246_violated`). -/
theorem C246_partial (cfg : RCfg) (s : Scan X Lm) (nK : Nat) (owner : Nat → Nat) (σ : List Nat) (f : Filt X Lm) (h : ∀ i ∈ σ, owner i < nK) : updateT cfg s nK owner σ f = updateC cfg s σ f := by
  unfold updateT updateC
  simp only
  rw [runT_eq cfg.cfg s nK owner σ _ h]
  rfl

/-- **C246** fails: a thread that did not exist at construction reads past the end of `kfs_` as soon as it comes to a particle with a landmark to which a measurement is assigned. -/
theorem C246_violated (cfg : RCfg) (s : Scan X Lm) (nK : Nat) (owner : Nat → Nat) (σ : List Nat) (f : Filt X Lm) (i : Nat) (hZ : s.nZ ≠ 0) (ho : nK ≤ owner i) (p : PF.Part (PState X Lm) ℝ)
    (hp : f.parts[i]? = some p) (da) (das) (hd : hypotheses cfg.cfg s.nZ s.murty (table (s.env p.st.x) cfg.cfg (inRange (s.env p.st.x) p.st.map)) = .ok (da :: das))
    (hc : f.resampled = true → i < f.cands.length ∧ f.parts.length + das.length ≤ f.cands.length) (hn : NeedsKf (s.env p.st.x) cfg.cfg (inRange (s.env p.st.x) p.st.map) da) :
    updateT cfg s nK owner (i :: i :: σ) f = .error .index := by
  unfold updateT
  simp only
  rw [if_neg hZ]
  have hgr : ∀ k, f.cands.length ≤ (grow k f.cands).length := by
    intro k
    unfold grow
    simp
  have e1 : tickT cfg.cfg s nK owner (fresh s.nZ (begun cfg s f)) i = start cfg.cfg s (fresh s.nZ (begun cfg s f)) i := rfl
  have e2 := start_of (cfg := cfg.cfg) (s := s) (c := fresh s.nZ (begun cfg s f)) (i := i) (p := p) (das := da :: das) hp hd (by simp) (by
    rintro ⟨h1, -, h2⟩
    obtain ⟨h3, h4⟩ := hc h1
    have := hgr (f.parts.length * cfg.cfg.maxHyp)
    simp only [fresh, begun, List.length_cons, Nat.add_sub_cancel] at h2
    omega)
  have : runT cfg.cfg s nK owner (i :: i :: σ) (fresh s.nZ (begun cfg s f)) = .error .index := by
    unfold runT
    rw [List.foldlM_cons, e1, e2]
    change (tickT cfg.cfg s nK owner _ i >>= _) = _
    unfold tickT
    simp only [Function.update_self]
    rw [if_pos ⟨ho, hn⟩]
    rfl
  change (match runT cfg.cfg s nK owner (i :: i :: σ) (fresh s.nZ (begun cfg s f)) with | Except.error e => Except.error e | Except.ok c => resampleMove cfg s c.f) = _
  rw [this]

/-- The hypotheses are met by the filter with two particles, each with two landmarks that explain both measurements; one Kalman filter, two threads. -/
theorem C246_violated_full : ¬ AnyThreads Bool Unit := by
  intro h
  obtain ⟨das, h1, h2, h3⟩ := two_hyp 3 ⟨1, [((), 0), ((), 0)]⟩ rfl
  cases das with
  | nil => simp at h2
  | cons da das =>
    obtain ⟨m, lm', c, ha, ⟨l, hl1, hl2, hl3, hl4⟩, -⟩ := h3 da (by simp) 0
    have key : (FastSLAMProps.twoCfg 3).minLL < tableEntry FastSLAMProps.twoEnv (FastSLAMProps.twoCfg 3) (inRange FastSLAMProps.twoEnv [((), 0), ((), 0)]) m (0 : Fin 2) := by
      unfold tableEntry
      rw [List.getElem?_eq_getElem m.2]
      simp only
      rw [show FastSLAMProps.twoEnv.lik (inRange FastSLAMProps.twoEnv [((), (0 : ℝ)), ((), 0)])[m.1].2.1 = some l from hl1]
      simp only
      rw [dif_pos (by decide), if_neg hl2]
      exact lt_max_of_lt_right (hl3 ▸ hl4)
    exact h staleCfg 2 twoScan 1 id [1, 1] (staleFilt []) (by omega) (stale_inv []) (by intro j hj; simp only [List.mem_cons, List.not_mem_nil, or_false, or_self] at hj; subst hj; simp [staleFilt])
      (C246_violated staleCfg twoScan 1 id [] (staleFilt []) 1 (by simp [twoScan]) (by simp) ⟨⟨true, [((), 0), ((), 0)]⟩, 1, 1, 1⟩ rfl da das h1 (fun e => by simp [staleFilt] at e) ⟨m, (0 : Fin 2), ha, key⟩)

/-- With two Kalman filters the same loop goes on. -/
example : updateT staleCfg twoScan 2 id [1, 1] (staleFilt []) = updateC staleCfg twoScan [1, 1] (staleFilt []) := C246_partial _ _ _ _ _ _ (by simp)

end FastMoreProps
end RFS
