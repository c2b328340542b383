import Verif.Lemmas.ParticleFilter
import Mathlib.Algebra.Field.Rat
import Mathlib.Algebra.Order.Ring.Rat
import Mathlib.Data.Rat.Floor
import Mathlib.Tactic.NormNum

/-!
Properties C29 to C34, C70 and C250: particle filter.
-/

set_option linter.unusedSectionVars false

namespace RFS
namespace PFProps
open PF

variable {S K : Type*} [Field K] [LinearOrder K] [IsStrictOrderedRing K]

theorem sum_map_mul (l : List (Part S K)) (c : K) : (l.map Part.w).sum * c = (l.map fun p => p.w * c).sum := by
  induction l with
  | nil => simp
  | cons a l ih => simp only [List.map_cons, List.sum_cons, add_mul, ih]

/-! ### C31 -/

/-- C31: normalising makes the weights sum to one, keeps their ratios and touches nothing else; a `resample` that returns `false` has
done only that, and it returns `false` exactly when it is not forced and the effective number of particles is above both thresholds. -/
theorem C31_normalize (P : List (Part S K)) (h : (P.map Part.w).sum ≠ 0) :
    ((normalizeWeights P).map Part.w).sum = 1 ∧
      (normalizeWeights P).map (fun p => (p.st, p.id, p.parent)) = P.map (fun p => (p.st, p.id, p.parent)) ∧
      ∀ (i j : Nat) (p q p' q' : Part S K), P[i]? = some p → P[j]? = some q → (normalizeWeights P)[i]? = some p' →
        (normalizeWeights P)[j]? = some q' → p'.w * q.w = p.w * q'.w := by
  refine ⟨?_, ?_, ?_⟩
  · unfold normalizeWeights
    rw [List.map_map]
    have : (Part.w ∘ fun p : Part S K => { p with w := p.w / (P.map Part.w).sum }) = fun p => p.w * ((P.map Part.w).sum)⁻¹ := by
      funext p; simp [div_eq_mul_inv]
    rw [this, ← sum_map_mul]
    exact mul_inv_cancel₀ h
  · unfold normalizeWeights
    rw [List.map_map]; rfl
  · intro i j p q p' q' h1 h2 h3 h4
    unfold normalizeWeights at h3 h4
    rw [List.getElem?_map, h1] at h3
    rw [List.getElem?_map, h2] at h4
    cases h3; cases h4
    simp only
    ring

theorem C31_no_resample (P P' : List (Part S K)) (n : Nat) (force : Bool) (t tp u : K)
    (h : resample P n force t tp u = some (false, P')) :
    P' = normalizeWeights P ∧ force = false ∧ enough (normalizeWeights P) t tp := by
  unfold resample at h
  simp only at h
  split at h
  · rename_i hc
    simp only [Option.some.injEq, Prod.mk.injEq, true_and] at h
    exact ⟨h.symm, hc.1, hc.2⟩
  · split at h
    · exact absurd h (by simp)
    · split at h
      · exact absurd h (by simp)
      · simp at h

example : normalizeWeights ([⟨0, 0, 0, 1⟩, ⟨1, 1, 1, 3⟩] : List (Part Nat Rat)) |>.map Part.w |>.map (· * 4) |> (· = [1, 3]) := by
  decide +kernel

/-! ### C29 -/

theorem normalized_sum (P : List (Part S K)) (h : 0 < (P.map Part.w).sum) : ((normalizeWeights P).map Part.w).sum = 1 :=
  (C31_normalize P h.ne').1

theorem normalized_length (P : List (Part S K)) : (normalizeWeights P).length = P.length := by simp [normalizeWeights]

theorem normalized_nonneg (P : List (Part S K)) (h0 : ∀ p ∈ P, 0 ≤ p.w) : ∀ w ∈ (normalizeWeights P).map Part.w, 0 ≤ w := by
  intro w hw
  unfold normalizeWeights at hw
  rw [List.map_map, List.mem_map] at hw
  obtain ⟨p, hp, rfl⟩ := hw
  have : 0 ≤ (P.map Part.w).sum := List.sum_nonneg (by
    intro x hx
    rw [List.mem_map] at hx
    obtain ⟨q, hq, rfl⟩ := hx
    exact h0 q hq)
  exact div_nonneg (h0 p hp) this

/-- Sampling never leaves the particle array, whatever the offset and the signs of the weights, and draws `n` ascending indices. -/
theorem C29_in_range (P : List (Part S K)) (hpos : 0 < (P.map Part.w).sum) (n : Nat) (hn : 0 < n) (u : K) (hu0 : 0 ≤ u) (hu1 : u < 1) :
    ∃ L, sample ((normalizeWeights P).map Part.w) n u = some L ∧ L.length = n ∧ (∀ j ∈ L, j < P.length) ∧ L.Pairwise (· ≤ ·) := by
  obtain ⟨L, e, l, c⟩ := sample_spec _ (normalized_sum P hpos) n hn u hu0 hu1
  refine ⟨L, e, l, ?_, sample_sorted _ n hn u L c⟩
  intro j hj
  obtain ⟨i, hi, rfl⟩ := List.getElem_of_mem hj
  have := (c i hi).1
  simpa [normalized_length] using this

/-- C29 (partial): for every offset strictly between 0 and 1, particle `j` is drawn `⌊n w_j⌋` or `⌈n w_j⌉` times. Missing: offset
exactly 0, where the code draws the first particle once too often (`C29_violated`). -/
theorem C29_systematic_sampling_partial [FloorRing K] (P : List (Part S K)) (h0 : ∀ p ∈ P, 0 ≤ p.w) (hpos : 0 < (P.map Part.w).sum)
    (n : Nat) (hn : 0 < n) (u : K) (hu0 : 0 < u) (hu1 : u < 1) :
    ∃ L, sample ((normalizeWeights P).map Part.w) n u = some L ∧ L.length = n ∧ (∀ j ∈ L, j < P.length) ∧
      ∀ (j : Nat) (p : Part S K), P[j]? = some p →
        ((L.count j : ℤ) = ⌊n * (p.w / (P.map Part.w).sum)⌋ ∨ (L.count j : ℤ) = ⌈n * (p.w / (P.map Part.w).sum)⌉) := by
  obtain ⟨L, e, l, c⟩ := sample_spec _ (normalized_sum P hpos) n hn u hu0.le hu1
  refine ⟨L, e, l, ?_, ?_⟩
  · intro j hj
    obtain ⟨i, hi, rfl⟩ := List.getElem_of_mem hj
    have := (c i hi).1
    simpa [normalized_length] using this
  · intro j p hp
    obtain ⟨hjl, hjp⟩ := List.getElem?_eq_some_iff.1 hp
    have hjw : j < ((normalizeWeights P).map Part.w).length := by simpa [normalized_length] using hjl
    have hf := count_floor _ (normalized_nonneg P h0) (normalized_sum P hpos) n hn u hu0 hu1 L l c j hjw
    rw [cumw_succ _ j hjw] at hf
    have hw : ((normalizeWeights P).map Part.w)[j] = p.w / (P.map Part.w).sum := by
      rw [← hjp]; simp [normalizeWeights]
    rw [hw] at hf
    set x := p.w / (P.map Part.w).sum with hx
    set a := cumw ((normalizeWeights P).map Part.w) j with ha
    rw [hf]
    have e1 : ((n : K) * (a + x) - u) = ((n : K) * a - u) + n * x := by ring
    rw [e1]
    set b := (n : K) * a - u
    set y := (n : K) * x
    have f1 := Int.floor_le b
    have f2 := Int.lt_floor_add_one b
    have f3 := Int.floor_le (b + y)
    have f4 := Int.lt_floor_add_one (b + y)
    have g1 : ⌊y⌋ ≤ ⌊b + y⌋ - ⌊b⌋ := by
      have h1 : ((⌊y⌋ : ℤ) : K) < ((⌊b + y⌋ - ⌊b⌋ + 1 : ℤ) : K) := by
        push_cast
        have := Int.floor_le y
        linarith
      have h2 : ⌊y⌋ < ⌊b + y⌋ - ⌊b⌋ + 1 := Int.cast_lt.1 h1
      omega
    have g2 : ⌊b + y⌋ - ⌊b⌋ ≤ ⌈y⌉ := by
      have h1 : ((⌊b + y⌋ - ⌊b⌋ - 1 : ℤ) : K) < ((⌈y⌉ : ℤ) : K) := by
        push_cast
        have := Int.le_ceil y
        linarith
      have h2 : ⌊b + y⌋ - ⌊b⌋ - 1 < ⌈y⌉ := Int.cast_lt.1 h1
      omega
    have g3 : ⌈y⌉ ≤ ⌊y⌋ + 1 := Int.ceil_le_floor_add_one y
    omega

/-- Offset 0 (which `drand48()` may return): a particle of weight 0 is drawn. -/
theorem C29_violated :
    ∃ P : List (Part Nat Rat), (∀ p ∈ P, 0 ≤ p.w) ∧ 0 < (P.map Part.w).sum ∧ (P.map Part.w)[0]? = some 0 ∧
      sample ((normalizeWeights P).map Part.w) 1 0 = some [0] :=
  ⟨[⟨0, 0, 0, 0⟩, ⟨1, 1, 1, 1⟩], by decide +kernel, by decide +kernel, by decide +kernel, by decide +kernel⟩

example : sample ([1/4, 1/2, 1/4] : List Rat) 4 (1/2) = some [0, 1, 1, 2] := by decide +kernel

/-! ### C30 -/

/-- Number of particles `resample(n)` aims at. -/
def target (N n : Nat) : Nat := if n = 0 ∨ N < n then N else n

/-- C30: a resampling step of a non-empty filter succeeds (no access outside the arrays); the surviving particles are, slot by slot,
copies of drawn ones, every draw being used exactly once; all weights are 1. `src` lists the source index of every slot; a drawn particle whose index is a slot
stays in its slot. -/
theorem C30_resample (P : List (Part S K)) (hpos : 0 < (P.map Part.w).sum) (n : Nat) (force : Bool) (t tp u : K) (hu0 : 0 ≤ u)
    (hu1 : u < 1) (hdo : force = true ∨ ¬ enough (normalizeWeights P) t tp) :
    ∃ (P' : List (Part S K)) (L src : List Nat), resample P n force t tp u = some (true, P') ∧ sample ((normalizeWeights P).map Part.w) (target P.length n) u = some L ∧
      L.length = target P.length n ∧ src.Perm L ∧ P'.length = target P.length n ∧
      (P'.map fun p => some p.st).Perm (L.map fun j => P[j]?.map Part.st) ∧
      (∀ p ∈ P', p.w = 1) ∧ (∀ j ∈ L, j < target P.length n → src[j]? = some j) ∧
      ∀ (s : Nat) (p : Part S K), P'[s]? = some p → ∃ (j : Nat) (q : Part S K), src[s]? = some j ∧ P[j]? = some q ∧ p.st = q.st ∧ p.parent = q.id := by
  have hP : P ≠ [] := by rintro rfl; simp at hpos
  have hPl : 0 < P.length := List.length_pos_iff.2 hP
  have htn : 0 < target P.length n := by unfold target; split <;> omega
  have htN : target P.length n ≤ P.length := by unfold target; split <;> omega
  obtain ⟨L, e, l, hb, hs⟩ := C29_in_range P hpos (target P.length n) htn u hu0 hu1
  obtain ⟨Q, eQ, lQ, src, sp, sl, sv, sk⟩ := copyLoop_result (target P.length n) (normalizeWeights P)
    (by rw [normalized_length]; exact htN) L l hs (fun x hx => by rw [normalized_length]; exact hb x hx)
  have hsrcb : ∀ x ∈ src, x < P.length := fun x hx => hb x (sp.subset hx)
  have hslot : ∀ s (hs : s < src.length), ∃ q : Part S K, P[src[s]]? = some q ∧
      Q[s]? = some { q with w := q.w / (P.map Part.w).sum, parent := q.id } := by
    intro s hs'
    have hlt := hsrcb _ (List.getElem_mem hs')
    refine ⟨P[src[s]], List.getElem?_eq_getElem hlt, ?_⟩
    rw [sv s hs']
    unfold normalizeWeights
    rw [List.getElem?_map, List.getElem?_eq_getElem hlt]
    rfl
  refine ⟨(Q.take (target P.length n)).map fun p => { p with w := 1 }, L, src, ?_, e, l, sp, ?_, ?_, ?_, sk, ?_⟩
  · unfold resample
    simp only [normalized_length]
    rw [if_neg (by rintro ⟨h1, h2⟩; rcases hdo with h | h
                   · rw [h] at h1; exact absurd h1 (by decide)
                   · exact h h2)]
    have : (if n = 0 ∨ P.length < n then P.length else n) = target P.length n := rfl
    rw [this, e]
    simp only
    rw [eQ]
  · rw [List.length_map, List.length_take, lQ, normalized_length]
    exact min_eq_left htN
  · refine List.Perm.trans (List.Perm.of_eq ?_) (sp.map fun j => P[j]?.map Part.st)
    apply List.ext_getElem?
    intro s
    by_cases hs' : s < src.length
    · obtain ⟨q, q1, q2⟩ := hslot s hs'
      rw [List.getElem?_map, List.getElem?_map, List.getElem?_take_of_lt (by omega), q2, List.getElem?_map,
        List.getElem?_eq_getElem hs']
      simp [q1]
    · rw [List.getElem?_eq_none (by rw [List.length_map, List.length_map, List.length_take]; omega),
        List.getElem?_eq_none (by rw [List.length_map]; omega)]
  · intro p hp
    rw [List.mem_map] at hp
    obtain ⟨q, _, rfl⟩ := hp
    rfl
  · intro s p hp
    rw [List.getElem?_map] at hp
    by_cases hs' : s < src.length
    · obtain ⟨q, q1, q2⟩ := hslot s hs'
      rw [List.getElem?_take_of_lt (by omega), q2] at hp
      simp only [Option.map_some, Option.some.injEq] at hp
      subst hp
      exact ⟨src[s], q, List.getElem?_eq_getElem hs', q1, rfl, rfl⟩
    · rw [List.getElem?_eq_none (by rw [List.length_take]; omega)] at hp
      exact absurd hp (by simp)

example : ((resample ([⟨10, 0, 0, 1⟩, ⟨11, 1, 1, 0⟩, ⟨12, 2, 2, 3⟩] : List (Part Nat Rat)) 2 true 0 0 (1/2)).map
    fun r => (r.1, r.2.map Part.st)) = some (true, [10, 12]) := by decide +kernel

/-! ### C33, C34: ids -/

/-- Histories of a filter: construction, later calls of `addParticles`, `copyParticle` and `resample`, and anything that changes states
and weights only (propagation, map and weight updates). `add`/`rs` tell whether `addParticles` after construction and a completed
resampling are allowed. -/
inductive Hist (add rs : Prop) : List (Part S K) → Prop
  | ctor (n : Nat) (x0 : S) : Hist add rs (addParticles [] n x0 1)
  | change (P : List (Part S K)) (f : Nat → S) (w : Nat → K) (h : Hist add rs P) :
      Hist add rs (P.mapIdx fun i p => { p with st := f i, w := w i })
  | addMore (P : List (Part S K)) (n : Nat) (x0 : S) (w0 : K) (h : Hist add rs P) (ha : add) : Hist add rs (addParticles P n x0 w0)
  | copy (P P' : List (Part S K)) (idx n : Nat) (w : K) (h : Hist add rs P) (he : copyParticle P idx n w = some P') : Hist add rs P'
  | noResample (P P' : List (Part S K)) (n : Nat) (t tp u : K) (h : Hist add rs P)
      (he : resample P n false t tp u = some (false, P')) : Hist add rs P'
  | resample (P P' : List (Part S K)) (n : Nat) (force : Bool) (t tp u : K) (h : Hist add rs P) (hr : rs)
      (he : PF.resample P n force t tp u = some (true, P')) : Hist add rs P'

/-- Without a second `addParticles` and without a completed resampling the id of a particle is its index. -/
theorem ids_eq_index (P : List (Part S K)) (h : Hist False False P) (i : Nat) (p : Part S K) (hp : P[i]? = some p) : p.id = i := by
  induction h generalizing i p with
  | ctor n x0 =>
    unfold addParticles at hp
    rw [List.nil_append, List.getElem?_map] at hp
    by_cases hi : i < n
    · rw [List.getElem?_range hi] at hp
      cases hp; rfl
    · rw [List.getElem?_eq_none (by simp; omega)] at hp
      exact absurd hp (by simp)
  | change P f w h ih =>
    rw [List.getElem?_mapIdx] at hp
    cases hq : P[i]? with
    | none => rw [hq] at hp; simp at hp
    | some q =>
      rw [hq] at hp
      simp only [Option.map_some, Option.some.injEq] at hp
      subst hp
      exact ih i q hq
  | addMore _ _ _ _ _ ha => exact ha.elim
  | copy P P' idx n w h he ih =>
    unfold copyParticle at he
    cases hq : P[idx]? with
    | none => rw [hq] at he; simp at he
    | some q =>
      rw [hq] at he
      simp only [Option.some.injEq] at he
      subst he
      obtain ⟨hil, hiq⟩ := List.getElem?_eq_some_iff.1 hq
      by_cases hi : i < P.length
      · rw [List.getElem?_append_left (by simpa using hi)] at hp
        by_cases hii : idx = i
        · subst hii
          rw [List.getElem?_set_self hil] at hp
          cases hp
          exact ih idx q hq
        · rw [List.getElem?_set_ne hii] at hp
          exact ih i p hp
      · rw [List.getElem?_append_right (by simpa using hi), List.getElem?_map, List.length_set] at hp
        by_cases hin : i - P.length < n
        · rw [List.getElem?_range hin] at hp
          cases hp
          simp only
          omega
        · rw [List.getElem?_eq_none (by simp; omega)] at hp
          exact absurd hp (by simp)
  | noResample P P' n t tp u h he ih =>
    obtain ⟨rfl, _, _⟩ := C31_no_resample P P' n false t tp u he
    unfold normalizeWeights at hp
    rw [List.getElem?_map] at hp
    cases hq : P[i]? with
    | none => rw [hq] at hp; simp at hp
    | some q =>
      rw [hq] at hp
      simp only [Option.map_some, Option.some.injEq] at hp
      subst hp
      exact ih i q hq
  | resample _ _ _ _ _ _ _ _ hr => exact hr.elim

/-- C33 (partial): in the first resampling of a filter, to which no particles were added after construction, the parent id of every
particle is the index of its source. Missing: later resamplings (`C33_violated`). -/
theorem C33_parent_is_source_index_partial (P : List (Part S K)) (h : Hist False False P) (hpos : 0 < (P.map Part.w).sum) (n : Nat)
    (force : Bool) (t tp u : K) (hu0 : 0 ≤ u) (hu1 : u < 1) (hdo : force = true ∨ ¬ enough (normalizeWeights P) t tp) :
    ∃ P' L, resample P n force t tp u = some (true, P') ∧ sample ((normalizeWeights P).map Part.w) (target P.length n) u = some L ∧
      (P'.map Part.parent).Perm L ∧
      ∀ p ∈ P', ∃ q, P[p.parent]? = some q ∧ p.st = q.st := by
  obtain ⟨P', L, src, e1, e2, e3, sp, pl, _, _, _, hsl⟩ := C30_resample P hpos n force t tp u hu0 hu1 hdo
  have hpar : ∀ (s : Nat) (p : Part S K), P'[s]? = some p → src[s]? = some p.parent ∧ ∃ q, P[p.parent]? = some q ∧ p.st = q.st := by
    intro s p hp
    obtain ⟨j, q, j1, j2, j3, j4⟩ := hsl s p hp
    have := ids_eq_index P h j q j2
    rw [j4, this]
    exact ⟨j1, q, j2, j3⟩
  refine ⟨P', L, e1, e2, ?_, ?_⟩
  · refine List.Perm.trans (List.Perm.of_eq ?_) sp
    apply List.ext_getElem?
    intro s
    by_cases hs' : s < P'.length
    · rw [List.getElem?_map, List.getElem?_eq_getElem hs']
      exact (hpar s _ (List.getElem?_eq_getElem hs')).1.symm
    · rw [List.getElem?_eq_none (by rw [List.length_map]; omega), List.getElem?_eq_none]
      rw [sp.length_eq, e3, ← pl]; omega
  · intro p hp
    obtain ⟨s, hs', rfl⟩ := List.getElem_of_mem hp
    exact (hpar s _ (List.getElem?_eq_getElem hs')).2

/-- A filter of two particles whose second one is drawn twice, then (after moving) whose first one is drawn twice. -/
def two : List (Part Nat Rat) := addParticles [] 2 0 1

/-- The code violates C33 in the second resampling: the particle reports parent 1, whose state differs from its own, having been copied
from particle 0. -/
theorem C33_violated :
    ∃ P P' : List (Part Nat Rat), Hist False True P ∧ resample P 0 true 0 0 (1/2) = some (true, P') ∧
      sample ((normalizeWeights P).map Part.w) 2 (1/2) = some [0, 0] ∧
      ∃ p ∈ P', p.parent = 1 ∧ P[p.parent]?.map Part.st ≠ some p.st := by
  have h0 : Hist False True two := Hist.ctor 2 0
  have h1 := Hist.change two (fun i => i) (fun i => i) h0
  have h3 : Hist False True ([⟨1, 1, 1, 1⟩, ⟨1, 1, 1, 1⟩] : List (Part Nat Rat)) :=
    Hist.resample _ _ 0 true 0 0 (1/2) h1 trivial (by decide +kernel)
  have h4 := Hist.change _ (fun i => 10 + i) (fun i => if i = 0 then 1 else 0) h3
  exact ⟨_, [⟨10, 1, 1, 1⟩, ⟨10, 1, 1, 1⟩], h4, by decide +kernel, by decide +kernel, ⟨10, 1, 1, 1⟩, by simp, rfl, by decide +kernel⟩

/-- Two new particles with the states 10 and 20 and the weights 1 and 3 meet the hypotheses. -/
example : Hist False False ([⟨10, 0, 0, 1⟩, ⟨20, 1, 1, 3⟩] : List (Part Nat Rat)) ∧ 0 < (([⟨10, 0, 0, 1⟩, ⟨20, 1, 1, 3⟩] : List (Part Nat Rat)).map Part.w).sum :=
  ⟨Hist.change _ (fun i => if i = 0 then 10 else 20) (fun i => if i = 0 then 1 else 3) (Hist.ctor 2 0), by norm_num⟩

/-- C34 (partial): ids are distinct in a filter to which no particles were added after construction and before the first resampling.
Missing: `addParticles` on a filter that has particles already (`C34_violated`), and resampling. -/
theorem C34_ids_distinct_partial (P : List (Part S K)) (h : Hist False False P) : (P.map Part.id).Nodup := by
  rw [List.nodup_iff_injective_getElem]
  rintro ⟨i, hi⟩ ⟨j, hj⟩ hij
  simp only [List.getElem_map] at hij
  have hi' : i < P.length := by simpa using hi
  have hj' : j < P.length := by simpa using hj
  rw [ids_eq_index P h i _ (List.getElem?_eq_getElem hi'), ids_eq_index P h j _ (List.getElem?_eq_getElem hj')] at hij
  simpa using hij

theorem C34_violated : ∃ P : List (Part Nat Rat), Hist True False P ∧ ¬ (P.map Part.id).Nodup :=
  ⟨addParticles two 1 5 1, Hist.addMore _ _ _ _ (Hist.ctor 2 0) trivial, by decide +kernel⟩

/-! ### C32 -/

/-- One iteration run without interference. -/
theorem three_steps (f : Nat → S → S) (s : PrSt S) (i : Nat) (h : s.pc i = 0) :
    propagate f s [i, i, i] = ⟨Function.update s.P i (f i (s.P i)), s.P i, f i (s.P i), Function.update s.pc i 3⟩ := by
  simp only [propagate, List.foldl_cons, List.foldl_nil, prStep, h, Function.update_self, Function.update_idem]

/-- C32 (partial): when the iterations run one at a time, in whatever order, every particle moves from its own pose and no other is
touched. Missing: overlapping iterations (`C32_violated`). -/
theorem C32_propagate_serial_partial (f : Nat → S → S) (ord : List Nat) (hnd : ord.Nodup) :
    ∀ s : PrSt S, (∀ i ∈ ord, s.pc i = 0) →
      ∀ i, (propagate f s (ord.flatMap fun i => [i, i, i])).P i = if i ∈ ord then f i (s.P i) else s.P i := by
  induction ord with
  | nil => intro s _ i; rfl
  | cons a ord ih =>
    intro s hs i
    rw [List.nodup_cons] at hnd
    have hstep : propagate f s ((a :: ord).flatMap fun i => [i, i, i])
        = propagate f (propagate f s [a, a, a]) (ord.flatMap fun i => [i, i, i]) := by
      rw [List.flatMap_cons]
      unfold propagate
      rw [List.foldl_append]
    rw [hstep, three_steps f s a (hs a (by simp)), ih hnd.2]
    · by_cases hia : i = a
      · subst hia
        simp [hnd.1]
      · simp [Function.update_of_ne hia, hia]
    · intro j hj
      have hja : j ≠ a := by rintro rfl; exact hnd.1 hj
      simp only [Function.update_of_ne hja]
      exact hs j (List.mem_cons_of_mem _ hj)

/-- Two threads that overlap: both particles end at the same pose, that of particle 1. Every iteration has run its three statements in
order. -/
theorem C32_violated :
    ∃ (f : Nat → Nat → Nat) (s : PrSt Nat) (sched : List Nat), (∀ i, s.pc i = 0) ∧ sched.count 0 = 3 ∧ sched.count 1 = 3 ∧
      (∀ i ∈ sched, i < 2) ∧ (propagate f s sched).P 0 ≠ f 0 (s.P 0) ∧ (propagate f s sched).P 0 = s.P 1 :=
  ⟨fun _ x => x, ⟨fun i => 10 + i, 0, 0, fun _ => 0⟩, [0, 1, 0, 1, 0, 1], fun _ => rfl, by decide, by decide, by decide,
    by decide, by decide⟩

/-- Three particles, moved in the order 1, 2, 0. -/
example : (propagate (fun i x => x + 10 * i) (⟨fun i => i, 0, 0, fun _ => 0⟩ : PrSt Nat) ([1, 2, 0].flatMap fun i => [i, i, i])).P 2 = 22 := by
  rw [C32_propagate_serial_partial _ [1, 2, 0] (by decide) _ (fun _ _ => rfl)]
  rfl

/-! ### C70 -/

/-- Effective number of particles of normalised weights. -/
def nEff (P : List (Part S K)) : K := 1 / ((normalizeWeights P).map fun p => p.w * p.w).sum

/-- C70 (partial): right after `setEffectiveParticleCountThreshold(t)` (lines 393-399: both members set, the second one to `t / N`) an
unforced `resample` resamples exactly when the effective number of particles does not exceed `t`. Missing: a filter whose threshold was
only set by the constructor (`C70_violated`). -/
theorem C70_threshold_partial (P : List (Part S K)) (hpos : 0 < (P.map Part.w).sum) (n : Nat) (t u : K) (hu0 : 0 ≤ u) (hu1 : u < 1) :
    ∃ b P', resample P n false t (t / P.length) u = some (b, P') ∧ (b = true ↔ nEff P ≤ t) := by
  have hP : P ≠ [] := by rintro rfl; simp at hpos
  have hPl : (0 : K) < P.length := by exact_mod_cast List.length_pos_iff.2 hP
  have hen : enough (normalizeWeights P) t (t / P.length) ↔ t < nEff P := by
    unfold enough nEff
    rw [normalized_length, div_lt_div_iff_of_pos_right hPl, and_self]
  by_cases h : enough (normalizeWeights P) t (t / P.length)
  · refine ⟨false, normalizeWeights P, ?_, ?_⟩
    · unfold resample
      exact if_pos ⟨rfl, h⟩
    · simp [hen.1 h]
  · obtain ⟨P', _, _, e, _⟩ := C30_resample P hpos n false t (t / P.length) u hu0 hu1 (Or.inr h)
    exact ⟨true, P', e, by simp only [true_iff]; exact not_lt.1 fun hc => h (hen.2 hc)⟩

/-- After the constructor, which sets the threshold to `N/4` and leaves `effNParticles_t_percent_` uninitialised, the decision depends on
the value left there: with equal weights (effective number `N`, above the threshold) one leftover value makes the filter resample. -/
theorem C70_violated :
    nEff two > 2 / 4 ∧ (resample two 0 false (2 / 4) 0 (1/2)).map Prod.fst = some false ∧
      (resample two 0 false (2 / 4) 7 (1/2)).map Prod.fst = some true := by
  refine ⟨by decide +kernel, by decide +kernel, by decide +kernel⟩

/-- Weights 1 and 3 stand for 8/5 particles: enough for a threshold of 1. -/
example : ∃ P', resample ([⟨10, 0, 0, 1⟩, ⟨20, 1, 1, 3⟩] : List (Part Nat Rat)) 0 false 1 (1 / 2) (1 / 2) = some (false, P') := by
  obtain ⟨b, P', h, hb⟩ := C70_threshold_partial ([⟨10, 0, 0, 1⟩, ⟨20, 1, 1, 3⟩] : List (Part Nat Rat)) (by norm_num) 0 1 (1 / 2) (by norm_num) (by norm_num)
  have : b = false := by
    rw [← Bool.not_eq_true, hb]
    decide +kernel
  rw [this] at h
  exact ⟨P', by rw [← h]; norm_num⟩

/-! ### C250 -/

/-- Specification: `Q` is `P` with `n` copies of the particle at `idx` appended, the particle and its copies with weight `w` - or the weight it had, if `w` is negative -, the copies with their places as ids and the parent of the original. -/
structure Copied (P : List (Part S K)) (idx n : Nat) (w : K) (Q : List (Part S K)) : Prop where
  length : Q.length = P.length + n
  others : ∀ j, j < P.length → j ≠ idx → Q[j]? = P[j]?
  itself : ∀ p, P[idx]? = some p → ∃ q, Q[idx]? = some q ∧ q.st = p.st ∧ q.id = p.id ∧ q.parent = p.parent ∧ (0 ≤ w → q.w = w) ∧ (w < 0 → q.w = p.w)
  copies : ∀ p j, P[idx]? = some p → j < n → ∃ q, Q[P.length + j]? = some q ∧ q.st = p.st ∧ q.id = P.length + j ∧ q.parent = p.parent ∧ (0 ≤ w → q.w = w) ∧ (w < 0 → q.w = p.w)

/-- **C250**: copying a particle. With an index outside of the set, memory outside of it is read. -/
theorem C250_copy (P : List (Part S K)) (idx n : Nat) (w : K) :
    (idx < P.length → ∃ Q, copyParticle P idx n w = some Q ∧ Copied P idx n w Q) ∧ (P.length ≤ idx → copyParticle P idx n w = none) := by
  refine ⟨fun h => ?_, fun h => by simp [copyParticle, List.getElem?_eq_none h]⟩
  have hw : ∀ (p : Part S K), (0 ≤ w → (if w < 0 then p.w else w) = w) ∧ (w < 0 → (if w < 0 then p.w else w) = p.w) :=
    fun p => ⟨fun h => if_neg (not_lt.2 h), fun h => if_pos h⟩
  have e : copyParticle P idx n w = some (P.set idx { P[idx] with w := if w < 0 then P[idx].w else w } ++
      (List.range n).map fun i => { P[idx] with id := P.length + i, w := if w < 0 then P[idx].w else w }) := by
    simp only [copyParticle, List.getElem?_eq_getElem h]
  refine ⟨_, e, ⟨by simp, fun j hj hne => ?_, fun p hp => ?_, fun p j hp hj => ?_⟩⟩
  · rw [List.getElem?_append_left (by simpa using hj), List.getElem?_set_ne (Ne.symm hne)]
  · rw [List.getElem?_eq_getElem h, Option.some.injEq] at hp
    subst hp
    rw [List.getElem?_append_left (by simpa using h), List.getElem?_set_self h]
    exact ⟨_, rfl, rfl, rfl, rfl, hw _⟩
  · rw [List.getElem?_eq_getElem h, Option.some.injEq] at hp
    subst hp
    rw [List.getElem?_append_right (by simp), List.length_set, Nat.add_sub_cancel_left, List.getElem?_map, List.getElem?_range hj]
    exact ⟨_, rfl, rfl, rfl, rfl, hw _⟩

/-- **C250**: if every id was the place of its particle, it still is, so that ids stay distinct. -/
theorem C250_ids (P Q : List (Part S K)) (idx n : Nat) (w : K) (h : copyParticle P idx n w = some Q) (hid : ∀ (j : Nat) (p : Part S K), P[j]? = some p → p.id = j) : ∀ (j : Nat) (q : Part S K), Q[j]? = some q → q.id = j := by
  intro j q hq
  have hi : idx < P.length := by
    by_contra hn
    rw [(C250_copy P idx n w).2 (not_lt.1 hn)] at h
    cases h
  obtain ⟨Q', h', hc⟩ := (C250_copy P idx n w).1 hi
  rw [h, Option.some.injEq] at h'
  subst h'
  by_cases hj : j < P.length
  · by_cases hne : j = idx
    · subst hne
      obtain ⟨q', e, -, e2, -⟩ := hc.itself _ (List.getElem?_eq_getElem hi)
      rw [hq, Option.some.injEq] at e
      subst e
      rw [e2]
      exact hid _ _ (List.getElem?_eq_getElem hi)
    · rw [hc.others j hj hne] at hq
      exact hid _ _ hq
  · have hlt := (List.getElem?_eq_some_iff.1 hq).1
    rw [hc.length] at hlt
    obtain ⟨q', e, -, e2, -⟩ := hc.copies _ (j - P.length) (List.getElem?_eq_getElem hi) (by omega)
    rw [show P.length + (j - P.length) = j by omega] at e e2
    rw [hq, Option.some.injEq] at e
    subst e
    exact e2

/-- Two copies of the first of two particles: with a weight, and with the weight it had. -/
example : (copyParticle two 0 2 (1/6)).map (fun Q => Q.map fun p => (p.id, p.w)) = some [(0, 1/6), (1, 1), (2, 1/6), (3, 1/6)] ∧
    (copyParticle two 0 1 (-1)).map (fun Q => Q.map fun p => (p.id, p.w)) = some [(0, 1), (1, 1), (2, 1)] := by
  simp [copyParticle, two, addParticles, List.range_succ]

end PFProps
end RFS
