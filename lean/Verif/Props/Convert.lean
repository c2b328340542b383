import Verif.Model.Convert
import Mathlib.Tactic.Common
import Mathlib.Tactic.NormNum

/-! C156, C157: conversion of log files. -/

set_option linter.unusedSectionVars false

namespace RFS
namespace ConvertProps
open Convert

/-- A particle in the old log: x, y, heading, weight. -/
structure Particle where
  (x y r w : ℝ)

/-- A landmark in the old log. -/
structure Lmk where
  (x y sxx sxy syx syy w : ℝ)

/-- The pose log in the old format. -/
def oldPoses (steps : List (ℝ × List Particle)) : List Tok :=
  .timesteps steps.length :: steps.flatMap fun s => .step s.1 :: .particles s.2.length :: s.2.flatMap fun p => [.num p.x, .num p.y, .num p.r, .num p.w]

/-- The pose log in the new format: one record per particle, with the time and the number of the particle. -/
def newPoses (steps : List (ℝ × List Particle)) : List Tok :=
  steps.flatMap fun s => ((List.range s.2.length).zip s.2).flatMap fun q => [.num s.1, .num q.1, .num q.2.x, .num q.2.y, .num q.2.r, .num q.2.w]

/-- The landmark log in the old format. -/
def oldMaps (nT nP : Nat) (maps : List (ℝ × Nat × List Lmk)) : List Tok :=
  .timesteps nT :: .nParticles nP :: maps.flatMap fun m => .map m.1 m.2.1 m.2.2.length ::
    m.2.2.flatMap fun l => [.num l.x, .num l.y, .num l.sxx, .num l.sxy, .num l.syx, .num l.syy, .num l.w]

/-- The landmark log in the new format: one record per landmark, with the time and the number of the particle. -/
def newMaps (maps : List (ℝ × Nat × List Lmk)) : List Tok :=
  maps.flatMap fun m => m.2.2.flatMap fun l => [.num m.1, .num m.2.1, .num l.x, .num l.y, .num l.sxx, .num l.sxy, .num l.syy, .num l.w]

theorem poseRows_ok (t : ℝ) (ps : List Particle) (i : Nat) (rest : List Tok) (rd : ℝ → ℝ) :
    poseRows rd t ps.length i ((ps.flatMap fun p => [.num p.x, .num p.y, .num p.r, .num p.w]) ++ rest) =
      (((List.range' i ps.length).zip ps).flatMap (fun q => [Tok.num (rd t), .num q.1, .num (rd q.2.x), .num (rd q.2.y), .num (rd q.2.r), .num (rd q.2.w)]), some rest) := by
  induction ps generalizing i with
  | nil => rfl
  | cons p ps ih =>
    simp only [List.flatMap_cons, List.length_cons, poseRows, List.cons_append, List.nil_append, readNums, Option.map_some, List.range'_succ, List.zip_cons_cons]
    rw [ih]

theorem poseSteps_ok (steps : List (ℝ × List Particle)) (rest : List Tok) (rd : ℝ → ℝ) :
    poseSteps rd steps.length ((steps.flatMap fun s => .step s.1 :: .particles s.2.length :: s.2.flatMap fun p => [.num p.x, .num p.y, .num p.r, .num p.w]) ++ rest) =
      (newPoses (steps.map fun s => (rd s.1, s.2.map fun p => ⟨rd p.x, rd p.y, rd p.r, rd p.w⟩)), 0) := by
  induction steps with
  | nil => rfl
  | cons s steps ih =>
    simp only [List.flatMap_cons, List.length_cons, poseSteps, List.cons_append, List.append_assoc]
    rw [poseRows_ok]
    simp only [ih]
    refine Prod.ext ?_ rfl
    simp only [newPoses, List.map_cons, List.flatMap_cons, List.length_map, List.range_eq_range', List.zip_map_right, List.flatMap_map]
    rfl

/-- **C156**: a pose log in the old format is converted to one record per particle, in order, with its time and its number in the step; `rd` is the effect of printing. -/
theorem C156_poses (steps : List (ℝ × List Particle)) (rest : List Tok) (rd : ℝ → ℝ) :
    pose rd (oldPoses steps ++ rest) = (newPoses (steps.map fun s => (rd s.1, s.2.map fun p => ⟨rd p.x, rd p.y, rd p.r, rd p.w⟩)), 0) := poseSteps_ok steps rest rd

theorem mapRows_ok (t : ℝ) (pid : Nat) (ls : List Lmk) (rest : List Tok) (rd : ℝ → ℝ) :
    mapRows rd t pid ls.length ((ls.flatMap fun l => [.num l.x, .num l.y, .num l.sxx, .num l.sxy, .num l.syx, .num l.syy, .num l.w]) ++ rest) =
      (ls.flatMap (fun l => [Tok.num (rd t), .num pid, .num (rd l.x), .num (rd l.y), .num (rd l.sxx), .num (rd l.sxy), .num (rd l.syy), .num (rd l.w)]), some rest) := by
  induction ls with
  | nil => rfl
  | cons l ls ih =>
    simp only [List.flatMap_cons, List.length_cons, mapRows, List.cons_append, List.nil_append, readNums, Option.map_some]
    rw [ih]

theorem maps_ok (ms : List (ℝ × Nat × List Lmk)) (rd : ℝ → ℝ) (fuel : Nat) (hf : ms.length ≤ fuel) :
    maps rd fuel (ms.flatMap fun m => .map m.1 m.2.1 m.2.2.length :: m.2.2.flatMap fun l => [.num l.x, .num l.y, .num l.sxx, .num l.sxy, .num l.syx, .num l.syy, .num l.w]) =
      (newMaps (ms.map fun m => (rd m.1, m.2.1, m.2.2.map fun l => ⟨rd l.x, rd l.y, rd l.sxx, rd l.sxy, rd l.syx, rd l.syy, rd l.w⟩)), 0) := by
  induction ms generalizing fuel with
  | nil => cases fuel <;> rfl
  | cons m ms ih =>
    obtain ⟨f, rfl⟩ : ∃ f, fuel = f + 1 := ⟨fuel - 1, by simp at hf; omega⟩
    simp only [List.flatMap_cons, maps, List.cons_append]
    rw [mapRows_ok]
    simp only [ih f (by simpa using hf)]
    refine Prod.ext ?_ rfl
    simp only [newMaps, List.map_cons, List.flatMap_cons, List.flatMap_map]

theorem length_le (ms : List (ℝ × Nat × List Lmk)) :
    ms.length ≤ (ms.flatMap fun m => Tok.map m.1 m.2.1 m.2.2.length :: m.2.2.flatMap fun l => [Tok.num l.x, .num l.y, .num l.sxx, .num l.sxy, .num l.syx, .num l.syy, .num l.w]).length := by
  induction ms with
  | nil => simp
  | cons m ms ih =>
    rw [List.flatMap_cons, List.length_append, List.length_cons, List.length_cons]
    omega

/-- A landmark log in the old format is converted to one record per landmark, in order, with time and number of the particle; the fourth entry of the covariance is left out. -/
theorem C156_maps (nT nP : Nat) (ms : List (ℝ × Nat × List Lmk)) (rd : ℝ → ℝ) :
    landmarks rd (oldMaps nT nP ms) =
      (newMaps (ms.map fun m => (rd m.1, m.2.1, m.2.2.map fun l => ⟨rd l.x, rd l.y, rd l.sxx, rd l.sxy, rd l.syx, rd l.syy, rd l.w⟩)), 0) :=
  maps_ok ms rd _ ((length_le ms).trans (Nat.le_succ _))

/-- Numbers with six decimals (as the old logs have) are not changed: the conversion of a complete log keeps the old files as backups and gives exactly the records of the old ones. -/
theorem C156_lossless (steps : List (ℝ × List Particle)) (nT nP : Nat) (ms : List (ℝ × Nat × List Lmk)) (rd : ℝ → ℝ) (pb lb : Option (List Tok))
    (hp : ∀ s ∈ steps, rd s.1 = s.1 ∧ ∀ p ∈ s.2, rd p.x = p.x ∧ rd p.y = p.y ∧ rd p.r = p.r ∧ rd p.w = p.w)
    (hm : ∀ m ∈ ms, rd m.1 = m.1 ∧ ∀ l ∈ m.2.2, rd l.x = l.x ∧ rd l.y = l.y ∧ rd l.sxx = l.sxx ∧ rd l.sxy = l.sxy ∧ rd l.syx = l.syx ∧ rd l.syy = l.syy ∧ rd l.w = l.w) :
    run rd ⟨some (oldPoses steps), pb, some (oldMaps nT nP ms), lb⟩ =
      some (⟨some (newPoses steps), some (oldPoses steps), some (newMaps ms), some (oldMaps nT nP ms)⟩, 0) := by
  have h1 := C156_poses steps [] rd
  rw [List.append_nil] at h1
  have e1 : (steps.map fun s => (rd s.1, s.2.map fun p => (⟨rd p.x, rd p.y, rd p.r, rd p.w⟩ : Particle))) = steps := by
    conv_rhs => rw [← List.map_id steps]
    refine List.map_congr_left fun s hs => ?_
    obtain ⟨h, h'⟩ := hp s hs
    rw [h]
    refine Prod.ext rfl ?_
    show s.2.map _ = s.2
    conv_rhs => rw [← List.map_id s.2]
    refine List.map_congr_left fun p hp => ?_
    obtain ⟨a, b, c, d⟩ := h' p hp
    rw [a, b, c, d]
    rfl
  have h2 := C156_maps nT nP ms rd
  have e2 : (ms.map fun m => (rd m.1, m.2.1, m.2.2.map fun l => (⟨rd l.x, rd l.y, rd l.sxx, rd l.sxy, rd l.syx, rd l.syy, rd l.w⟩ : Lmk))) = ms := by
    conv_rhs => rw [← List.map_id ms]
    refine List.map_congr_left fun m hm' => ?_
    obtain ⟨h, h'⟩ := hm m hm'
    rw [h]
    refine Prod.ext rfl (Prod.ext rfl ?_)
    show m.2.2.map _ = m.2.2
    conv_rhs => rw [← List.map_id m.2.2]
    refine List.map_congr_left fun l hl => ?_
    obtain ⟨a, b, c, d, e, f, g⟩ := h' l hl
    rw [a, b, c, d, e, f, g]
    rfl
  rw [e1] at h1
  rw [e2] at h2
  unfold run
  simp only [h1, h2, ne_eq, not_true_eq_false, if_false]

theorem readNums_some : ∀ (n : Nat) (r : List Tok) (a : List ℝ) (r' : List Tok), readNums n r = some (a, r') → r = a.map Tok.num ++ r' := by
  intro n
  induction n with
  | zero => intro r a r' h; cases h; rfl
  | succ n ih =>
    intro r a r' h
    unfold readNums at h
    split at h
    · cases ‹_ + 1 = 0›
    · rename_i k x r0 hk
      cases hk
      obtain ⟨⟨b, s⟩, hb, he⟩ := Option.map_eq_some_iff.1 h
      cases he
      rw [ih _ _ _ hb]; rfl
    · cases h

theorem poseRows_some (rd : ℝ → ℝ) (t : ℝ) : ∀ (n i : Nat) (r r' : List Tok), (poseRows rd t n i r).2 = some r' →
    ∃ ps : List Particle, ps.length = n ∧ r = (ps.flatMap fun p => [.num p.x, .num p.y, .num p.r, .num p.w]) ++ r' := by
  intro n
  induction n with
  | zero => intro i r r' h; cases h; exact ⟨[], rfl, rfl⟩
  | succ n ih =>
    intro i r r' h
    unfold poseRows at h
    split at h
    · rename_i x y a w r1 h1
      obtain ⟨ps, hl, he⟩ := ih _ _ _ h
      refine ⟨⟨x, y, a, w⟩ :: ps, by simp [hl], ?_⟩
      rw [readNums_some _ _ _ _ h1, he]; rfl
    · cases h

theorem poseSteps_zero (rd : ℝ → ℝ) : ∀ (k : Nat) (r : List Tok), (poseSteps rd k r).2 = 0 →
    ∃ (steps : List (ℝ × List Particle)) (rest : List Tok), steps.length = k ∧
      r = (steps.flatMap fun s => .step s.1 :: .particles s.2.length :: s.2.flatMap fun p => [.num p.x, .num p.y, .num p.r, .num p.w]) ++ rest := by
  intro k
  induction k with
  | zero => intro r _; exact ⟨[], r, rfl, rfl⟩
  | succ k ih =>
    intro r h
    unfold poseSteps at h
    split at h
    · cases ‹_ + 1 = 0›
    · rename_i k' t n r0 hk
      cases hk
      simp only at h
      split at h
      · exact absurd h (by simp)
      · rename_i r1 h1
        obtain ⟨ps, hl, he⟩ := poseRows_some rd t _ _ _ _ h1
        obtain ⟨steps, rest, hl2, he2⟩ := ih _ h
        refine ⟨(t, ps) :: steps, rest, by simp [hl2], ?_⟩
        rw [he, he2]
        simp [hl]
    · exact absurd h (by simp)
    · exact absurd h (by simp)

/-- The conversion of a pose log reports success exactly when the file begins with a complete log: a log that ends too early, or in which something else stands, is reported. -/
theorem C156_poses_reported (rd : ℝ → ℝ) (f : List Tok) : (pose rd f).2 = 0 ↔ ∃ steps rest, f = oldPoses steps ++ rest := by
  constructor
  · intro h
    unfold pose at h
    split at h
    · rename_i n r
      obtain ⟨steps, rest, hl, he⟩ := poseSteps_zero rd _ _ h
      exact ⟨steps, rest, by rw [he, ← hl]; rfl⟩
    · exact absurd h (by simp)
  · rintro ⟨steps, rest, rfl⟩
    rw [C156_poses]

theorem mapRows_some (rd : ℝ → ℝ) (t : ℝ) (pid : Nat) : ∀ (n : Nat) (r r' : List Tok), (mapRows rd t pid n r).2 = some r' →
    ∃ ls : List Lmk, ls.length = n ∧ r = (ls.flatMap fun l => [.num l.x, .num l.y, .num l.sxx, .num l.sxy, .num l.syx, .num l.syy, .num l.w]) ++ r' := by
  intro n
  induction n with
  | zero => intro r r' h; cases h; exact ⟨[], rfl, rfl⟩
  | succ n ih =>
    intro r r' h
    unfold mapRows at h
    split at h
    · rename_i x y a b c e w r1 h1
      obtain ⟨ls, hl, he⟩ := ih _ _ h
      refine ⟨⟨x, y, a, b, c, e, w⟩ :: ls, by simp [hl], ?_⟩
      rw [readNums_some _ _ _ _ h1, he]; rfl
    · cases h

theorem maps_zero (rd : ℝ → ℝ) : ∀ (fuel : Nat) (r : List Tok), r.length < fuel → (maps rd fuel r).2 = 0 →
    ∃ (ms : List (ℝ × Nat × List Lmk)) (rest : List Tok), (∀ t pid n, rest.head? ≠ some (.map t pid n)) ∧
      r = (ms.flatMap fun m => .map m.1 m.2.1 m.2.2.length :: m.2.2.flatMap fun l => [.num l.x, .num l.y, .num l.sxx, .num l.sxy, .num l.syx, .num l.syy, .num l.w]) ++ rest := by
  intro fuel
  induction fuel with
  | zero => intro r h; omega
  | succ fuel ih =>
    intro r hr h
    unfold maps at h
    split at h
    · rename_i k t pid n r0 hk
      cases hk
      simp only at h
      split at h
      · exact absurd h (by simp)
      · rename_i r1 h1
        obtain ⟨ls, hl, he⟩ := mapRows_some rd t pid _ _ _ h1
        have hlen : r1.length < fuel := by
          have := congrArg List.length he
          rw [List.length_append] at this
          rw [List.length_cons] at hr
          omega
        obtain ⟨ms, rest, hr2, he2⟩ := ih _ hlen h
        refine ⟨(t, pid, ls) :: ms, rest, hr2, ?_⟩
        rw [he, he2]
        simp [hl]
    · rename_i f0 r0 h1
      refine ⟨[], _, ?_, rfl⟩
      intro t pid n hh
      obtain ⟨r', rfl⟩ := List.head?_eq_some_iff.1 hh
      exact h1 fuel t pid n r' rfl rfl

theorem maps_ok_rest (rd : ℝ → ℝ) (rest : List Tok) (hrest : ∀ t pid n, rest.head? ≠ some (.map t pid n)) : ∀ (ms : List (ℝ × Nat × List Lmk)) (fuel : Nat),
    (maps rd fuel ((ms.flatMap fun m => .map m.1 m.2.1 m.2.2.length :: m.2.2.flatMap fun l => [.num l.x, .num l.y, .num l.sxx, .num l.sxy, .num l.syx, .num l.syy, .num l.w]) ++ rest)).2 = 0 := by
  intro ms
  induction ms with
  | nil =>
    intro fuel
    rw [List.flatMap_nil, List.nil_append]
    unfold maps
    split
    · rename_i t pid n r
      exact absurd rfl (hrest t pid n)
    · rfl
  | cons m ms ih =>
    intro fuel
    cases fuel with
    | zero => rfl
    | succ f =>
      simp only [List.flatMap_cons, maps, List.cons_append, List.append_assoc]
      rw [mapRows_ok]
      exact ih f

/-- The conversion of a landmark log reports success exactly when both headers are there and every map that is announced is complete. (What follows the last complete map is ignored
without a message if it is not the announcement of a map.) -/
theorem C156_maps_reported (rd : ℝ → ℝ) (f : List Tok) : (landmarks rd f).2 = 0 ↔
    ∃ nT nP ms rest, f = oldMaps nT nP ms ++ rest ∧ ∀ t pid n, rest.head? ≠ some (.map t pid n) := by
  constructor
  · intro h
    unfold landmarks at h
    split at h
    · rename_i nT nP r
      obtain ⟨ms, rest, h1, h2⟩ := maps_zero rd _ _ (Nat.lt_succ_self _) h
      exact ⟨nT, nP, ms, rest, by conv_lhs => rw [h2]
                                  rfl, h1⟩
    · exact absurd h (by simp)
    · exact absurd h (by simp)
  · rintro ⟨nT, nP, ms, rest, rfl, h⟩
    exact maps_ok_rest rd rest h ms _

example : (pose id [.timesteps 2, .step 1, .particles 0]).2 = 2 := rfl

/-! ### C157: what running it does to the files -/

/-- **C157**: one run keeps the contents of the log files, as backups. -/
theorem C157_backup_partial (rd : ℝ → ℝ) (d d' : Dir) (c : Nat) (h : run rd d = some (d', c)) : d'.poseBak = d.poseDat ∧ d'.lmkBak = d.lmkDat := by
  unfold run at h
  split at h
  · rename_i l p h1 h2
    rw [h1, h2]
    simp only at h
    split at h <;>
      · simp only [Option.some.injEq, Prod.mk.injEq] at h
        obtain ⟨rfl, -⟩ := h
        exact ⟨rfl, rfl⟩
  · cases h

theorem newPoses_pose (steps : List (ℝ × List Particle)) (rd : ℝ → ℝ) : pose rd (newPoses steps) = ([], 1) := by
  have : ∀ l, l = newPoses steps → pose rd l = ([], 1) := by
    intro l hl
    cases l with
    | nil => rfl
    | cons a l =>
      cases a with
      | num x => rfl
      | timesteps n =>
        exfalso
        have : Tok.timesteps n ∈ newPoses steps := by rw [← hl]; exact List.mem_cons_self
        simp [newPoses] at this
      | nParticles n => rfl
      | step t => rfl
      | particles n => rfl
      | map t p n => rfl
  exact this _ rfl

/-- A second run on a log that has been converted ends with an error, having replaced the backup of the old log by the converted one and emptied the log; a third run replaces that too: nothing is left. -/
theorem C157_violated (steps : List (ℝ × List Particle)) (ms : List (ℝ × Nat × List Lmk)) (rd : ℝ → ℝ) (pb lb : Option (List Tok)) :
    run rd ⟨some (newPoses steps), pb, some (newMaps ms), lb⟩ = some (⟨some [], some (newPoses steps), some [], some (newMaps ms)⟩, 1) ∧
      (run rd ⟨some (newPoses steps), pb, some (newMaps ms), lb⟩).bind (fun r => run rd r.1) = some (⟨some [], some [], some [], some []⟩, 1) := by
  have h1 : run rd ⟨some (newPoses steps), pb, some (newMaps ms), lb⟩ = some (⟨some [], some (newPoses steps), some [], some (newMaps ms)⟩, 1) := by
    unfold run
    simp only [newPoses_pose, ne_eq, one_ne_zero, not_false_eq_true, if_true]
  refine ⟨h1, ?_⟩
  rw [h1]
  rfl

/-- The hypotheses can be met: a log of two steps with one and two particles. -/
example : pose id (oldPoses [(1 / 10, [⟨1, 2, 3, 1⟩]), (2 / 10, [⟨1, 2, 3, 1 / 2⟩, ⟨2, 2, 3, 1 / 2⟩])]) =
    ([.num (1 / 10), .num (0 : Nat), .num 1, .num 2, .num 3, .num 1, .num (2 / 10), .num (0 : Nat), .num 1, .num 2, .num 3, .num (1 / 2),
      .num (2 / 10), .num (1 : Nat), .num 2, .num 2, .num 3, .num (1 / 2)], 0) := rfl

end ConvertProps
end RFS
