import Verif.Lemmas.PHDLeak
import Verif.Props.PHDThreads

/-!
What becomes of the landmarks that `RBPHDFilter::updateMap` allocates (include/RBPHDFilter.hpp line 629): they are kept in `mTables_` until the map takes them (lines 677-685).
-/

set_option linter.unusedSectionVars false

namespace RFS
namespace PHDLeakProps
open PHD hiding Filt
open PHDT

variable {T Z K X F : Type} [Field K] [LinearOrder K] [IsStrictOrderedRing K]

/-- The models give no negative probabilities, likelihoods or intensities. -/
structure Nonneg (env : Env X T Z K F) : Prop where
  pd : ∀ x l, 0 ≤ (env.pd x l).1
  lik : ∀ f x l z, 0 ≤ (env.kf f x l z).2.1
  clutter : ∀ z n, 0 ≤ env.clutter z n

/-- A landmark is allocated for `l` and measurement `z`: `l` can be seen (or is near the limit of the sensor), the likelihood is not zero and the distance is within the threshold. -/
def Allocates (env : Env X T Z K F) (cfg : TCfg K) (f : F) (x : X) (l : T) (z : Z) : Prop :=
  ((env.pd x l).2 = true ∨ (env.pd x l).1 ≠ 0) ∧ (env.kf f x l z).2.1 ≠ 0 ∧ (env.kf f x l z).2.2 ≤ cfg.mdThr * cfg.mdThr

instance (env : Env X T Z K F) (cfg : TCfg K) (f : F) (x : X) (l : T) (z : Z) : Decidable (Allocates env cfg f x l z) := by unfold Allocates; infer_instance

/-- How many landmarks `updateMap` allocates. -/
def allocated (env : Env X T Z K F) (cfg : TCfg K) (f : F) (Zs : List Z) (c : Cell X T K) : Nat :=
  (c.map.map fun g => Zs.countP fun z => decide (Allocates env cfg f c.x g.lm z)).sum

/-- The table holds no landmark. -/
def Clean (t : Tab T K) : Prop := ∀ i j, t.m i j = none

theorem Pd_ne_zero (env : Env X T Z K F) (f : F) (x : X) (l : T) : Pd (sens env f x) l ≠ 0 ↔ (env.pd x l).2 = true ∨ (env.pd x l).1 ≠ 0 := by
  change (if (env.pd x l).2 = true then (1 : K) else (env.pd x l).1) ≠ 0 ↔ _
  split
  · rename_i h
    simp [h]
  · rename_i h
    simp [h]

theorem entry_some (env : Env X T Z K F) (cfg : TCfg K) (f : F) (x : X) (g : Comp T K) (z : Z) :
    (Allocates env cfg f x g.lm z → entry (sens env f x) cfg.mdThr g z = (some (env.kf f x g.lm z).1, Pd (sens env f x) g.lm * g.w * (env.kf f x g.lm z).2.1)) ∧
    (¬ Allocates env cfg f x g.lm z → entry (sens env f x) cfg.mdThr g z = (none, 0)) := by
  unfold Allocates
  rw [← Pd_ne_zero env f]
  unfold entry
  constructor
  · rintro ⟨h1, h2, h3⟩
    rw [if_pos h1]
    exact if_neg (by rintro (h | h); exact h2 h; exact absurd h (not_lt.2 h3))
  · intro h
    by_cases h1 : Pd (sens env f x) g.lm ≠ 0
    · rw [if_pos h1]
      refine if_pos ?_
      by_contra h4
      push Not at h4
      exact h ⟨h1, h4.1, h4.2⟩
    · rw [if_neg h1]

/-- The weight of an allocated landmark is positive exactly if that of the old one is. -/
theorem weight_pos (env : Env X T Z K F) (hn : Nonneg env) (cfg : TCfg K) (f : F) (Zs : List Z) (c : Cell X T K) (hw : ∀ g ∈ c.map, 0 ≤ g.w) (g : Comp T K) (hg : g ∈ c.map) (z : Z)
    (ha : Allocates env cfg f c.x g.lm z) : 0 < wTab (sens env f c.x) cfg.mdThr c.map Zs.length g z ↔ 0 < g.w := by
  rw [wTab_pos (s := sens env f c.x) (fun l => hn.pd _ l) (fun l z => hn.lik _ _ l z) hn.clutter hw Zs.length hg z, (entry_some env cfg f c.x g z).1 ha]
  have h1 : 0 < Pd (sens env f c.x) g.lm := by
    refine lt_of_le_of_ne ?_ (Ne.symm ((Pd_ne_zero env f c.x g.lm).2 ha.1))
    unfold Pd
    split
    · exact zero_le_one
    · exact hn.pd _ _
  have h2 : 0 < (env.kf f c.x g.lm z).2.1 := lt_of_le_of_ne (hn.lik _ _ _ _) (Ne.symm ha.2.1)
  simp only
  rw [mul_pos_iff_of_pos_right h2, mul_pos_iff_of_pos_left h1]

/-! ### C238 -/

/-- **C238**, what happens exactly: a place of the table that `updateMap` used holds a landmark afterwards if and only if that landmark was allocated for a Gaussian of weight zero; all other landmarks that were
allocated are in the map. -/
theorem C238_exact (env : Env X T Z K F) (hn : Nonneg env) (cfg : TCfg K) (f : F) (Zs : List Z) (t : Tab T K) (c : Cell X T K) (hw : ∀ g ∈ c.map, 0 ≤ g.w) :
    ∃ t' c', updateOne env cfg f Zs t c = .ok (t', c') ∧
      (∀ m (hm : m < c.map.length) z (hz : z < Zs.length) l, t'.m m z = some l ↔ Allocates env cfg f c.x c.map[m].lm Zs[z] ∧ c.map[m].w = 0 ∧ l = (env.kf f c.x c.map[m].lm Zs[z]).1) ∧
      c'.map.length + allocated env cfg f Zs { c with map := c.map.filter fun g => decide (g.w = 0) } = c.map.length + allocated env cfg f Zs c := by
  unfold updateOne
  by_cases hm : c.map.length = 0
  · rw [if_pos hm]
    have hc : c.map = [] := List.length_eq_zero_iff.1 hm
    exact ⟨_, _, rfl, fun m h => absurd h (by omega), by simp [noMap, hc, allocated]⟩
  · rw [if_neg hm]
    obtain ⟨a, e1, e2, e3⟩ := acts_ok env cfg f Zs c hm t
    rw [e1]
    refine ⟨_, _, rfl, fun m hm z hz l => ?_, ?_⟩
    · rw [e3 m hm z hz]
      unfold kept
      have hg := List.getElem_mem hm
      by_cases ha : Allocates env cfg f c.x c.map[m].lm Zs[z]
      · have hp := weight_pos env hn cfg f Zs c hw _ hg Zs[z] ha
        by_cases h0 : 0 < c.map[m].w
        · rw [if_pos (hp.2 h0)]
          constructor
          · intro h; cases h
          · rintro ⟨_, h, _⟩; exact absurd h (ne_of_gt h0)
        · rw [if_neg (fun h => h0 (hp.1 h)), (entry_some env cfg f c.x c.map[m] Zs[z]).1 ha]
          have h0' : c.map[m].w = 0 := le_antisymm (not_lt.1 h0) (hw _ hg)
          constructor
          · intro h; exact ⟨ha, h0', (Option.some.inj h).symm⟩
          · rintro ⟨_, _, rfl⟩; rfl
      · rw [(entry_some env cfg f c.x c.map[m] Zs[z]).2 ha]
        constructor
        · intro h
          split at h <;> cases h
        · rintro ⟨h, _⟩; exact absurd h ha
    · rw [e2]
      unfold result updateMap
      simp only
      rw [if_neg hm]
      simp only [List.length_append, List.length_map, add_assoc]
      congr 1
      have key : ∀ l : List (Comp T K), (∀ g ∈ l, g ∈ c.map) →
          (l.flatMap fun g => Zs.filterMap fun z => newComp (sens env f c.x) cfg.mdThr c.map Zs.length g z).length + allocated env cfg f Zs { c with map := l.filter fun g => decide (g.w = 0) } =
            allocated env cfg f Zs { c with map := l } := by
        intro l
        induction l with
        | nil => intro _; rfl
        | cons g l ih =>
          intro hl
          have ih := ih fun g hg => hl g (List.mem_cons_of_mem _ hg)
          have hg := hl g List.mem_cons_self
          unfold allocated at ih ⊢
          simp only at ih ⊢
          rw [List.flatMap_cons, List.length_append, List.map_cons, List.sum_cons, ← ih]
          have hone : ∀ zs : List Z, (zs.filterMap fun z => newComp (sens env f c.x) cfg.mdThr c.map Zs.length g z).length =
              if g.w = 0 then 0 else zs.countP fun z => decide (Allocates env cfg f c.x g.lm z) := by
            intro zs
            induction zs with
            | nil => simp
            | cons z zs ihz =>
              have hn' : newComp (sens env f c.x) cfg.mdThr c.map Zs.length g z ≠ none ↔ g.w ≠ 0 ∧ Allocates env cfg f c.x g.lm z := by
                unfold newComp
                by_cases ha : Allocates env cfg f c.x g.lm z
                · have hp := weight_pos env hn cfg f Zs c hw _ hg z ha
                  rw [(entry_some env cfg f c.x g z).1 ha]
                  simp only
                  by_cases h0 : 0 < g.w
                  · rw [if_pos (hp.2 h0)]
                    simp [ha, ne_of_gt h0]
                  · rw [if_neg (fun h => h0 (hp.1 h))]
                    simp [le_antisymm (not_lt.1 h0) (hw _ hg)]
                · rw [(entry_some env cfg f c.x g z).2 ha]
                  simp [ha]
              rw [List.filterMap_cons, List.countP_cons]
              by_cases h0 : g.w = 0
              · have : newComp (sens env f c.x) cfg.mdThr c.map Zs.length g z = none := by
                  by_contra h
                  exact (hn'.1 h).1 h0
                rw [this]
                simp only
                rw [ihz, if_pos h0, if_pos h0]
              · rw [if_neg h0] at ihz ⊢
                by_cases ha : Allocates env cfg f c.x g.lm z
                · obtain ⟨b, hb⟩ := Option.ne_none_iff_exists'.1 (hn'.2 ⟨h0, ha⟩)
                  rw [hb]
                  simp only [List.length_cons]
                  rw [ihz]
                  simp [ha]
                · have : newComp (sens env f c.x) cfg.mdThr c.map Zs.length g z = none := by
                    by_contra h
                    exact ha (hn'.1 h).2
                  rw [this]
                  simp only
                  rw [ihz]
                  simp [ha]
          rw [hone]
          by_cases h0 : g.w = 0
          · rw [List.filter_cons_of_pos (by simpa using h0), List.map_cons, List.sum_cons, if_pos h0]
            omega
          · rw [List.filter_cons_of_neg (by simpa using h0), if_neg h0]
            omega
      exact key c.map fun _ h => h

/-- Map updates one after the other with the same tables: measurements and particle of each. -/
def updates (env : Env X T Z K F) (cfg : TCfg K) (f : F) (us : List (List Z × Cell X T K)) (t : Tab T K) : Except Err (Tab T K) :=
  us.foldlM (fun t u => (updateOne env cfg f u.1 t u.2).map Prod.fst) t

/-- **C238**, the claim as far as it holds: if all Gaussians have positive weights, every landmark that an update allocates is in the map afterwards, and the tables hold none; this is so after any number of updates of any
particles. -/
theorem C238_partial (env : Env X T Z K F) (hn : Nonneg env) (cfg : TCfg K) (f : F) (us : List (List Z × Cell X T K)) (hw : ∀ u ∈ us, ∀ g ∈ u.2.map, 0 < g.w) (t : Tab T K) (ht : Clean t) :
    (∃ t', updates env cfg f us t = .ok t' ∧ Clean t') ∧
    ∀ u ∈ us, ∀ s : Tab T K, ∃ t' c', updateOne env cfg f u.1 s u.2 = .ok (t', c') ∧ c'.map.length = u.2.map.length + allocated env cfg f u.1 u.2 := by
  constructor
  · induction us generalizing t with
    | nil => exact ⟨t, rfl, ht⟩
    | cons u us ih =>
      obtain ⟨t1, c1, e, h1, _⟩ := C238_exact env hn cfg f u.1 t u.2 fun g hg => le_of_lt (hw u List.mem_cons_self g hg)
      have hc : Clean t1 := by
        by_cases hm : u.2.map.length = 0
        · unfold updateOne at e
          rw [if_pos hm] at e
          cases e
          exact ht
        · have hk : Keeps u.2.map.length u.1.length (⟨t1, ⟨u.2.map.length, fun _ => 0, fun _ => false, 0, 1⟩, c1⟩ : Work X T K) := by
            unfold updateOne at e
            rw [if_neg hm] at e
            split at e
            · cases e
            · rename_i a ea
              have := acts_keep (nM := u.2.map.length) (a := setup cfg u.1.length t u.2) ⟨rfl, fun i j _ => check_clean _ _ ht i j⟩ ea
              cases e
              exact ⟨rfl, this.2⟩
          intro i j
          by_cases hij : i < u.2.map.length ∧ j < u.1.length
          · cases hx : t1.m i j with
            | none => rfl
            | some l =>
              have := (h1 i hij.1 j hij.2 l).1 hx
              exact absurd this.2.1 (ne_of_gt (hw u List.mem_cons_self _ (List.getElem_mem hij.1)))
          · exact hk.2 i j hij
      obtain ⟨t2, e2, h2⟩ := ih (fun u hu => hw u (List.mem_cons_of_mem _ hu)) t1 hc
      refine ⟨t2, ?_, h2⟩
      unfold updates at e2 ⊢
      rw [List.foldlM_cons, e]
      exact e2
  · intro u hu s
    obtain ⟨t1, c1, e, _, h2⟩ := C238_exact env hn cfg f u.1 s u.2 fun g hg => le_of_lt (hw u hu g hg)
    refine ⟨t1, c1, e, ?_⟩
    rw [List.filter_eq_nil_iff.2 (fun g hg => by simpa using ne_of_gt (hw u hu g hg))] at h2
    simpa [allocated] using h2

open PHDTProps in
/-- Two updates of a map with two landmarks, with positive weights: the detections are in the map, the table is clean. -/
example : Nonneg lineEnv ∧ (∀ u ∈ [([5, 9, 20], lineCell), ([6], lineCell)], ∀ g ∈ u.2.map, 0 < g.w) ∧ Clean (Tab.init : Tab Nat ℚ) ∧ allocated lineEnv (lineCfg true 1) () [5, 9, 20] lineCell = 2 := by
  refine ⟨⟨fun _ _ => by simp [lineEnv], fun _ x l z => ?_, fun _ _ => by simp [lineEnv]⟩, by decide +kernel, fun _ _ => rfl, by decide +kernel⟩
  simp only [lineEnv]
  split
  · norm_num
  · split <;> norm_num

/-- A sensor that always sees a landmark (probability of detection 1). -/
def sureEnv : Env Nat Nat Nat ℚ Unit := { PHDTProps.lineEnv with pd := fun _ _ => (1, false) }

/-- The particle of one landmark after `n` updates with the measurement 5 (nothing is pruned), and the table. -/
def after : Nat → Except Err (Tab Nat ℚ × Cell Nat Nat ℚ)
  | 0 => .ok (Tab.init, ⟨2, [⟨3, 1, 0⟩], 1, [], 0⟩)
  | n + 1 => (after n).bind fun s => updateOne sureEnv (PHDTProps.lineCfg false 1) () [5] s.1 s.2

/-- **C238**, violated: where a landmark is seen with certainty, its old Gaussian gets weight zero. If it is not pruned (threshold 0) the next update allocates a landmark for it, keeps it in the table and does
not add it to the map; the update after that (here: nothing fits) overwrites the only pointer to it. -/
theorem C238_violated :
    ((after 1).toOption.map fun s => (s.2.map.map Comp.w, s.1.m 0 0)) = some ([0, 2 / 3], none) ∧
    ((after 2).toOption.map fun s => (s.2.map.length, s.1.m 0 0)) = some (3, some 3) ∧
    ((after 1).toOption.map fun s => allocated sureEnv (PHDTProps.lineCfg false 1) () [5] s.2) = some 2 ∧
    (((after 2).bind fun s => updateOne sureEnv (PHDTProps.lineCfg false 1) () [50] s.1 s.2).toOption.map fun s => (s.2.map.length, s.1.m 0 0)) = some (3, none) := by
  decide +kernel

end PHDLeakProps
end RFS
