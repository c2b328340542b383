import Verif.Lemmas.Batch
import Verif.Props.Motion

/-!
Properties C107-C110: bookkeeping of the batch optimisers `RFSCeresSLAM` and `RFSPSOSLAM`.
-/

set_option linter.unusedSectionVars false

namespace RFS
namespace BatchProps
open Batch

/-! ### C107 -/

section time
variable {τ M : Type} [LinearOrder τ]

/-- **C107**, the full statement: pose 0 is at time `zero`, pose `k` at the time of the `k`-th input; whatever the order in which inputs are given, each measurement
whose time is that of one pose is filed under this pose. -/
def C107_full : Prop := ∀ (U : List Nat) (zs : List (Nat × Nat)), (0 :: U).Nodup → (∀ z ∈ zs, z.1 ∈ 0 :: U) →
  ∃ s, addMeasurements zs (setInputs 0 U ⟨[], [], []⟩) = .ok s ∧ ∀ (i : Nat) (z : Nat × Nat), zs[i]? = some z →
    ∃ (k : Nat) (l : List Nat), s.time[k]? = some z.1 ∧ s.Z[k]? = some l ∧ l = (zs.filter fun w => decide (w.1 = z.1)).map Prod.snd

theorem addAll (l : List τ) (hs : l.Pairwise (· ≤ ·)) : ∀ (zs : List (τ × M)) (s : TL τ M), s.time = l → s.Z.length = l.length → (∀ z ∈ zs, z.1 ∈ l) →
    ∃ r, addMeasurements zs s = .ok r ∧ r.time = l ∧ r.Z.length = l.length ∧
      ∀ (k : Nat) (t : τ) (c : List M), l[k]? = some t → s.Z[k]? = some c →
        ((∀ j < k, l[j]? ≠ some t) → r.Z[k]? = some (c ++ (zs.filter fun w => decide (w.1 = t)).map Prod.snd)) ∧
        ((∃ j < k, l[j]? = some t) → r.Z[k]? = some c) := by
  intro zs
  induction zs with
  | nil => intro s h1 h2 _; exact ⟨s, rfl, h1, h2, fun k t c _ hc => ⟨fun _ => by simpa using hc, fun _ => hc⟩⟩
  | cons z zs ih =>
    intro s h1 h2 hz
    obtain ⟨k0, e1, e2, e3⟩ := lowerBound_sorted l z.1 hs (hz z (List.mem_cons_self ..))
    have hk0 : k0 < s.Z.length := by rw [h2]; exact (List.getElem?_eq_some_iff.1 e2).1
    have hadd : addMeasurement z.1 z.2 s = .ok { s with Z := s.Z.modify k0 (· ++ [z.2]) } := by
      unfold addMeasurement
      rw [h1, e1]
      simp only [e2, ne_eq, not_true, if_false, hk0, if_true]
    obtain ⟨r, f1, f2, f3, f4⟩ := ih { s with Z := s.Z.modify k0 (· ++ [z.2]) } h1 (by simpa using h2) fun w hw => hz w (List.mem_cons_of_mem _ hw)
    refine ⟨r, by simp only [addMeasurements, hadd, f1], f2, f3, fun k t c hk hc => ?_⟩
    by_cases hkk : k = k0
    · subst hkk
      have ht : t = z.1 := by rw [hk] at e2; exact Option.some.inj e2
      subst ht
      have hc' : (s.Z.modify k (· ++ [z.2]))[k]? = some (c ++ [z.2]) := by
        rw [List.getElem?_modify_eq]; simp [hc]
      have g := f4 k z.1 (c ++ [z.2]) hk hc'
      refine ⟨fun hj => ?_, fun ⟨j, hj, hjt⟩ => absurd (e3 j hj _ hjt) (lt_irrefl _)⟩
      rw [g.1 hj]
      simp
    · have hc' : (s.Z.modify k0 (· ++ [z.2]))[k]? = some c := by
        rw [List.getElem?_modify_ne _ _ (Ne.symm hkk)]; exact hc
      have g := f4 k t c hk hc'
      refine ⟨fun hj => ?_, g.2⟩
      have hne : z.1 ≠ t := by
        intro hzt
        rw [hzt] at e2 e3
        rcases lt_or_gt_of_ne hkk with hlt | hlt
        · exact absurd (e3 k hlt t hk) (lt_irrefl _)
        · exact hj k0 hlt e2
      rw [g.1 hj]
      simp [hne]

/-- **C107**, what holds: with the inputs in the order of time, each measurement whose time is that of a pose is filed under it (under the first pose of that
time), in the order in which they came, and nothing else is. Missing: inputs in another order (`C107_violated`), later measurements (`C107_late_violated`), inputs
given one by one (`C107_addInput_violated`). -/
theorem C107_filed_partial (zero : τ) (U : List τ) (zs : List (τ × M)) (hs : (zero :: U).Pairwise (· ≤ ·)) (hz : ∀ z ∈ zs, z.1 ∈ zero :: U) :
    ∃ s, addMeasurements zs (setInputs zero U ⟨[], [], []⟩) = .ok s ∧ s.Z.length = U.length + 1 ∧
      ∀ (k : Nat) (t : τ), (zero :: U)[k]? = some t →
        ((∀ j < k, (zero :: U)[j]? ≠ some t) → s.Z[k]? = some ((zs.filter fun w => decide (w.1 = t)).map Prod.snd)) ∧
        ((∃ j < k, (zero :: U)[j]? = some t) → s.Z[k]? = some []) := by
  have hl : (setInputs zero U (⟨[], [], []⟩ : TL τ M)).Z = List.replicate (U.length + 1) [] := by simp [setInputs, resizeZ]
  obtain ⟨r, h1, h2, h3, h4⟩ := addAll (zero :: U) hs zs (setInputs zero U ⟨[], [], []⟩) rfl (by rw [hl]; simp) hz
  refine ⟨r, h1, by simpa using h3, fun k t hk => ?_⟩
  have hk' : k < U.length + 1 := by simpa using (List.getElem?_eq_some_iff.1 hk).1
  have g := h4 k t [] hk (by rw [hl, List.getElem?_replicate, if_pos hk'])
  simpa using g

/-- **C107** is false of the code when the inputs are not in the order of time: the sort it contains sorts nothing, and a measurement is refused though there is a
pose of its time. -/
theorem C107_violated : ¬ C107_full := by
  intro h
  obtain ⟨s, h1, -⟩ := h [2, 1] [(1, 7)] (by decide) (by decide)
  exact absurd h1 (by simp [addMeasurements, addMeasurement, setInputs, lowerBound, resizeZ])

/-- The full statement on measurements that belong to no pose: they are refused. -/
def C107_refuse_full : Prop := ∀ (U : List Nat) (t z : Nat) (s : TL Nat Nat), (0 :: U).Pairwise (· ≤ ·) → s = setInputs 0 U ⟨[], [], []⟩ → t ∉ 0 :: U →
  addMeasurement t z s = .exit

/-- **C107**, refusing, what holds: a measurement that is not later than every pose. -/
theorem C107_refuse_partial (zero : τ) (U : List τ) (t : τ) (z : M) (s : TL τ M) (hs : (zero :: U).Pairwise (· ≤ ·)) (hS : s.time = zero :: U) (ht : t ∉ zero :: U)
    (hlate : ∃ t' ∈ zero :: U, t < t') : addMeasurement t z s = .exit := by
  have key : ∀ l : List τ, l.Pairwise (· ≤ ·) → t ∉ l → (∃ t' ∈ l, t < t') → ∃ k x, lowerBound l t = some k ∧ l[k]? = some x ∧ x ≠ t := by
    intro l
    induction l with
    | nil => rintro - - ⟨_, h, -⟩; cases h
    | cons a l ih =>
      intro h1 h2 h3
      rw [List.pairwise_cons] at h1
      rw [List.mem_cons, not_or] at h2
      by_cases hat : a < t
      · obtain ⟨k, x, i1, i2, i3⟩ := ih h1.2 h2.2 (by
          obtain ⟨t', ht', hlt⟩ := h3
          rcases List.mem_cons.1 ht' with rfl | ht'
          · exact absurd hlt (not_lt.2 hat.le)
          · exact ⟨t', ht', hlt⟩)
        refine ⟨k + 1, x, ?_, by simpa using i2, i3⟩
        unfold lowerBound at i1 ⊢
        simp only [List.dropWhile_cons, List.takeWhile_cons, hat, decide_true, if_true] at i1 ⊢
        by_cases hc : ((l.dropWhile fun x => decide (x < t)).all fun x => decide (¬ x < t)) = true
        · rw [if_pos hc] at i1 ⊢
          simp only [Option.some.injEq] at i1
          simp [i1]
        · rw [if_neg hc] at i1; cases i1
      · refine ⟨0, a, ?_, by simp, Ne.symm h2.1⟩
        unfold lowerBound
        simp only [List.dropWhile_cons, List.takeWhile_cons, hat, decide_false]
        simp only [Bool.false_eq_true, if_false, List.length_nil]
        rw [if_pos]
        rw [List.all_eq_true]
        intro x hx
        rcases List.mem_cons.1 hx with rfl | hx
        · exact decide_eq_true hat
        · exact decide_eq_true (not_lt.2 ((not_lt.1 hat).trans (h1.1 x hx)))
  obtain ⟨k, x, e1, e2, e3⟩ := key _ hs ht hlate
  unfold addMeasurement
  rw [hS, e1]
  simp only [e2, ne_eq, e3, not_false_eq_true, if_true]

/-- **C107**, refusing, is false of the code for a measurement later than every pose: the end of the container is read. -/
theorem C107_late_violated : ¬ C107_refuse_full := by
  intro h
  have := h [1] 5 0 _ (by decide) rfl (by decide)
  simp [addMeasurement, setInputs, lowerBound] at this

/-- **C107** when the inputs are given one by one, with measurements at the times of the inputs: pose 1 is at the time of the first input, but its measurement is
filed under pose 0. -/
theorem C107_addInput_violated : ∃ s, addMeasurements [(1, 7), (2, 8)] (addInput 2 (addInput 1 (⟨[], [], []⟩ : TL Nat Nat))) = .ok s ∧ s.Z = [[7], [8], []] := by
  refine ⟨⟨[1, 2], [1, 2], [[7], [8], []]⟩, ?_, rfl⟩
  simp [addMeasurements, addMeasurement, addInput, lowerBound, resizeZ]

/-- Non-trivial instance: three poses, three measurements. -/
example : ∃ s, addMeasurements [(3, 7), (0, 8), (3, 9)] (setInputs 0 [3, 4] (⟨[], [], []⟩ : TL Nat Nat)) = .ok s ∧ s.Z = [[8], [7, 9], []] := by
  refine ⟨⟨[3, 4], [0, 3, 4], [[8], [7, 9], []]⟩, ?_, rfl⟩
  simp [addMeasurements, addMeasurement, setInputs, lowerBound, resizeZ]

end time

/-! ### C108 -/

section params
variable {K : Type} [Zero K] {P D : Nat}

theorem init_eq (traj : List (Fin P → K)) (lms : List (Fin D → K)) :
    initParams traj lms = some ((flat traj.tail ++ flat lms).map some) := by
  unfold initParams
  rw [paramWrites_eq]
  rw [List.foldlM_map]
  have hlen : (flat traj.tail ++ flat lms).length = numParameters P D traj.length lms.length := by
    simp only [List.length_append, flat_length, List.length_tail, numParameters]
  have h := fold_set (flat traj.tail ++ flat lms) 0 (List.replicate (numParameters P D traj.length lms.length) none) (by
    rw [List.length_replicate, hlen, Nat.zero_add])
  rw [h]
  simp [← hlen]

theorem read_flat (traj : List (Fin P → K)) (lms : List (Fin D → K)) (h : traj ≠ []) :
    readParams P D traj.length lms.length (flat traj.tail ++ flat lms) = some ((fun _ => 0) :: traj.tail, lms) := by
  have hT : traj.length ≠ 0 := by simpa using h
  have hlen : (flat traj.tail ++ flat lms).length = numParameters P D traj.length lms.length := by
    simp only [List.length_append, flat_length, List.length_tail, numParameters]
  have hft : (flat traj.tail).length = (traj.length - 1) * P := by rw [flat_length, List.length_tail]
  unfold readParams
  rw [if_neg (by rw [hlen]; omega)]
  simp only [Option.some.injEq, Prod.mk.injEq]
  constructor
  · apply List.ext_getElem
    · simp; omega
    · intro k h1 h2
      simp only [List.getElem_map, List.getElem_range]
      simp only [List.length_map, List.length_range] at h1
      cases k with
      | zero => simp
      | succ k =>
        simp only [Nat.succ_ne_zero, if_false, Nat.add_sub_cancel, List.getElem_cons_succ]
        funext d
        have hk : k < traj.tail.length := by rw [List.length_tail]; omega
        have hlt : k * P + d.1 < (flat traj.tail).length := by
          rw [flat_length]
          have := d.2
          calc k * P + d.1 < k * P + P := by omega
            _ = (k + 1) * P := by ring
            _ ≤ traj.tail.length * P := Nat.mul_le_mul_right _ hk
        rw [List.getD_eq_getElem?_getD, List.getElem?_append_left hlt, flat_get, List.getElem?_eq_getElem hk]
        simp
  · apply List.ext_getElem
    · simp
    · intro m h1 h2
      simp only [List.getElem_map, List.getElem_range]
      funext d
      rw [List.getD_eq_getElem?_getD, List.getElem?_append_right (by rw [hft]; omega), hft,
        show (traj.length - 1) * P + m * D + d.1 - (traj.length - 1) * P = m * D + d.1 by omega, flat_get, List.getElem?_eq_getElem h2]
      simp

/-- **C108**: the initial parameter vector is completely written, has the length that `NumParameters` reports, and `Evaluate` reads back the trajectory and the map it
was made from, except that the first pose is the origin. -/
theorem C108_round_trip (traj : List (Fin P → K)) (lms : List (Fin D → K)) (h : traj ≠ []) : ∃ ps : List K,
    initParams traj lms = some (ps.map some) ∧ ps.length = numParameters P D traj.length lms.length ∧
    readParams P D traj.length lms.length ps = some ((fun _ => 0) :: traj.tail, lms) :=
  ⟨flat traj.tail ++ flat lms, init_eq traj lms, by simp only [List.length_append, flat_length, List.length_tail, numParameters], read_flat traj lms h⟩

/-- **C108**: each parameter vector of the right length stands for a trajectory and a map of which it is the vector, so the optimiser can reach every
trajectory and map, and different vectors are different ones. -/
theorem C108_bijective (T M : Nat) (hT : 1 ≤ T) (ps : List K) (h : ps.length = numParameters P D T M) : ∃ (traj : List (Fin P → K)) (lms : List (Fin D → K)),
    traj.length = T ∧ lms.length = M ∧ readParams P D T M ps = some (traj, lms) ∧ initParams traj lms = some (ps.map some) := by
  let traj : List (Fin P → K) := (List.range T).map (fun k d => if k = 0 then 0 else ps.getD ((k - 1) * P + d.1) 0)
  let lms : List (Fin D → K) := (List.range M).map (fun m d => ps.getD ((T - 1) * P + m * D + d.1) 0)
  have ht : traj.length = T := by simp [traj]
  have hl : lms.length = M := by simp [lms]
  refine ⟨traj, lms, ht, hl, ?_, ?_⟩
  · unfold readParams
    rw [if_neg (by omega)]
  · rw [init_eq]
    congr 2
    unfold numParameters at h
    apply List.ext_getElem
    · simp only [List.length_append, flat_length, List.length_tail, ht, hl, h]
    · intro i h1 h2
      rw [← Option.some.injEq, ← List.getElem?_eq_getElem h1, ← List.getElem?_eq_getElem h2]
      by_cases hi : i < (T - 1) * P
      · have hP : 0 < P := Nat.pos_of_ne_zero (by rintro rfl; simp at hi)
        have hk : i / P < T - 1 := Nat.div_lt_of_lt_mul (by rw [Nat.mul_comm]; exact hi)
        have hd : i % P < P := Nat.mod_lt _ hP
        have hi' : i = i / P * P + (⟨i % P, hd⟩ : Fin P).1 := by simp [Nat.div_add_mod']
        rw [List.getElem?_append_left (by rw [flat_length, List.length_tail, ht]; exact hi)]
        conv_lhs => rw [hi']
        rw [flat_get]
        have hg : traj.tail[i / P]? = some (fun d => ps.getD (i / P * P + d.1) 0) := by
          rw [List.getElem?_tail, List.getElem?_map, List.getElem?_range (by omega)]
          simp
        rw [hg]
        simp only [Option.map_some]
        rw [← hi', List.getD_eq_getElem?_getD, List.getElem?_eq_getElem h2]
        simp
      · have hi2 : i < (T - 1) * P + M * D := by omega
        have hD : 0 < D := Nat.pos_of_ne_zero (by rintro rfl; simp at hi2; omega)
        obtain ⟨j, rfl⟩ : ∃ j, i = (T - 1) * P + j := ⟨i - (T - 1) * P, by omega⟩
        have hj : j < M * D := by omega
        have hk : j / D < M := Nat.div_lt_of_lt_mul (by rw [Nat.mul_comm]; exact hj)
        have hd : j % D < D := Nat.mod_lt _ hD
        have hj' : j = j / D * D + (⟨j % D, hd⟩ : Fin D).1 := by simp [Nat.div_add_mod']
        have hft : (flat traj.tail).length = (T - 1) * P := by rw [flat_length, List.length_tail, ht]
        rw [List.getElem?_append_right (by rw [hft]; omega), hft, show (T - 1) * P + j - (T - 1) * P = j by omega]
        conv_lhs => rw [hj']
        rw [flat_get]
        have hg : lms[j / D]? = some (fun d => ps.getD ((T - 1) * P + j / D * D + d.1) 0) := by
          rw [List.getElem?_map, List.getElem?_range hk]
          simp
        rw [hg]
        simp only [Option.map_some]
        rw [show (T - 1) * P + j / D * D + (⟨j % D, hd⟩ : Fin D).1 = (T - 1) * P + j by conv_rhs => rw [hj', ← Nat.add_assoc]]
        rw [List.getD_eq_getElem?_getD, List.getElem?_eq_getElem h2]
        simp

/-- Non-trivial instance: two poses of dimension 2, one landmark of dimension 1. -/
example : initParams (K := Nat) [![1, 2], ![3, 4]] [![5]] = some [some 3, some 4, some 5] ∧
    (readParams 2 1 2 1 [3, 4, 5]).map (fun r => (r.1.map List.ofFn, r.2.map List.ofFn)) = some ([[0, 0], [3, 4]], [[5]]) := by
  constructor <;> decide +kernel

end params

/-! ### C109 -/

section map
variable {L Zt : Type}

/-- **C109**: the initial map first has a landmark for every number up to the greatest that is named by a data association, made from the first measurement with this
association (default-constructed for a number never named), then one for each measurement without association whose random number is small enough; it does not
access anything outside. -/
theorem C109_map (inv : Zt → L) (draw : Nat → Bool) (zs : List (Zt × Int)) : ∃ (n : Nat) (named free : List (Option L)),
    initMap inv draw zs = some (named ++ free) ∧ named.length = n ∧ (∀ z ∈ zs, z.2 < n) ∧ (0 < n → ∃ z ∈ zs, z.2 = (n : Int) - 1) ∧
    (∀ d < n, named[d]? = some ((zs.find? fun z => decide (z.2 = (d : Int))).map fun z => inv z.1)) ∧
    free = (((zs.filter fun z => decide (z.2 = -1)).zipIdx).filter fun x => draw x.2).map (fun x => some (inv x.1.1)) := by
  have hlt : ∀ z ∈ zs, z.2 < (namedSize zs : Int) := by
    intro z hz
    by_cases h0 : 0 ≤ z.2
    · have := lt_namedSize zs z.2.toNat ⟨z, hz, by omega⟩
      omega
    · omega
  refine ⟨namedSize zs, (List.range (namedSize zs)).map (first inv zs), _, ?_, by simp, hlt, ?_, ?_, rfl⟩
  · unfold initMap
    rw [initNamed_eq inv _ zs hlt]
    simp only [Option.map_some, addFree_eq, List.map_map, Option.some.injEq]
    rfl
  · intro h0
    by_contra hno
    push Not at hno
    have := namedSize_le zs (namedSize zs - 1) fun z hz => by
      have h1 := hlt z hz
      have h2 := hno z hz
      omega
    omega
  · intro d hd
    rw [List.getElem?_map, List.getElem?_range hd]
    rfl

/-- Non-trivial instance: landmarks 0 and 2 named, one free measurement taken, one not, one false alarm. -/
example : initMap (fun z : Nat => z) (fun j => j == 0) [(10, 2), (11, -1), (12, 2), (13, -2), (14, 0), (15, -1)] = some [some 14, none, some 10, some 11] := by
  decide +kernel

end map

/-! ### C110 -/

section cost
open Matrix

variable {P : Nat} {W : Type} [AddCommGroup W]

/-- The change of a trajectory in direction `a`. -/
def along {V : Type} [AddCommGroup V] [Module ℝ V] (x a : Nat → V) (t : ℝ) : Nat → V := fun k => x k + t • a k

/-- Specification: `g` is the gradient of `f` at `x` with respect to the new pose `a` and minus the gradient with respect to the old pose `b`. -/
def DiffGrad (f : (Fin P → ℝ) → (Fin P → ℝ) → ℝ) (new old g : Fin P → ℝ) : Prop :=
  ∀ a b : Fin P → ℝ, HasDerivAt (fun t : ℝ => f (new + t • a) (old + t • b)) (g ⬝ᵥ (a - b)) 0

/-- **C110**, the assembly: the cost is minus the sum of the log likelihoods of all motions and all scans, the landmark gradient is minus the sum of the scans', and the
segment of pose `k` is minus (motion to `k`, minus motion from `k`, plus scan at `k`); nothing outside is accessed if there are two poses or more and an element of
`time_` for each. -/
theorem C110_assembly (proc : Nat → ℝ × (Fin P → ℝ)) (meas : Nat → ℝ × (Fin P → ℝ) × W) (T nT nI : Nat) (hT : 2 ≤ T) (h1 : T ≤ nT) (h2 : T ≤ nI + 1) :
    ∃ c g gl, evaluate proc meas T nT nI = some (c, g, gl) ∧
      c = -(∑ k ∈ Finset.range (T - 1), (proc (k + 1)).1 + ∑ k ∈ Finset.range T, (meas k).1) ∧ gl = -∑ k ∈ Finset.range T, (meas k).2.2 ∧
      ∀ i < T - 1, g i = -((proc (i + 1)).2 - (if i + 2 < T then (proc (i + 2)).2 else 0) + (meas (i + 1)).2.1) := by
  obtain ⟨r, e1, e2, e3, e4⟩ := total_eq proc meas T nT nI hT h1 h2
  refine ⟨-r.l, fun k => -r.tg k, -r.lg, by unfold evaluate; rw [e1]; rfl, by rw [e2], by rw [e3], fun i hi => congrArg Neg.neg (e4 i hi)⟩

theorem sum_shift (n : Nat) (g : Nat → Fin P → ℝ) (a : Nat → Fin P → ℝ) (ha : a 0 = 0) :
    ∑ k ∈ Finset.range (n + 1), g (k + 1) ⬝ᵥ (a (k + 1) - a k) =
      ∑ i ∈ Finset.range (n + 1), (g (i + 1) - if i < n then g (i + 2) else 0) ⬝ᵥ a (i + 1) := by
  simp only [sub_dotProduct, dotProduct_sub, Finset.sum_sub_distrib]
  congr 1
  rw [Finset.sum_range_succ', Finset.sum_range_succ _ n, ha]
  simp only [dotProduct_zero, add_zero, lt_irrefl, if_false, zero_dotProduct]
  refine Finset.sum_congr rfl fun k hk => ?_
  rw [if_pos (Finset.mem_range.1 hk)]

/-- **C110**, what holds: the gradient that `Evaluate` returns is the derivative of the cost along every change of the poses (but the first) and landmarks, if the
log likelihood of a motion has opposite gradients with respect to the new and the old pose, as with odometry on a line (`C110_odometry1d`). The scans' gradients are
assumed to be right. Missing: other motion models (`C110_violated`). -/
theorem C110_gradient_partial {n : Nat} (proc : Nat → (Fin P → ℝ) → (Fin P → ℝ) → ℝ × (Fin P → ℝ))
    (meas : Nat → (Fin P → ℝ) → (Fin n → ℝ) → ℝ × (Fin P → ℝ) × (Fin n → ℝ)) (x a : Nat → Fin P → ℝ) (m b : Fin n → ℝ) (ha : a 0 = 0)
    (T nT nI : Nat) (hT : 2 ≤ T) (h1 : T ≤ nT) (h2 : T ≤ nI + 1)
    (hp : ∀ k < T - 1, DiffGrad (fun new old => (proc (k + 1) new old).1) (x (k + 1)) (x k) (proc (k + 1) (x (k + 1)) (x k)).2)
    (hm : ∀ k < T, HasDerivAt (fun t : ℝ => (meas k (x k + t • a k) (m + t • b)).1) ((meas k (x k) m).2.1 ⬝ᵥ a k + (meas k (x k) m).2.2 ⬝ᵥ b) 0) :
    ∃ c g gl, evaluate (fun k => proc k (x k) (x (k - 1))) (fun k => meas k (x k) m) T nT nI = some (c, g, gl) ∧
      HasDerivAt (fun t : ℝ => ((evaluate (fun k => proc k (along x a t k) (along x a t (k - 1))) (fun k => meas k (along x a t k) (m + t • b)) T nT nI).map Prod.fst).getD 0)
        (∑ i ∈ Finset.range (T - 1), g i ⬝ᵥ a (i + 1) + gl ⬝ᵥ b) 0 := by
  obtain ⟨c, g, gl, e1, e2, e3, e4⟩ := C110_assembly (fun k => proc k (x k) (x (k - 1))) (fun k => meas k (x k) m) T nT nI hT h1 h2
  refine ⟨c, g, gl, e1, ?_⟩
  have hf : ∀ t : ℝ, ((evaluate (fun k => proc k (along x a t k) (along x a t (k - 1))) (fun k => meas k (along x a t k) (m + t • b)) T nT nI).map Prod.fst).getD 0 =
      -(∑ k ∈ Finset.range (T - 1), (proc (k + 1) (x (k + 1) + t • a (k + 1)) (x k + t • a k)).1 + ∑ k ∈ Finset.range T, (meas k (x k + t • a k) (m + t • b)).1) := by
    intro t
    obtain ⟨c', g', gl', f1, f2, -⟩ := C110_assembly (fun k => proc k (along x a t k) (along x a t (k - 1))) (fun k => meas k (along x a t k) (m + t • b)) T nT nI hT h1 h2
    rw [f1]
    simp only [Option.map_some, Option.getD_some, f2]
    rfl
  rw [funext hf]
  have hd := ((HasDerivAt.fun_sum fun k (hk : k ∈ Finset.range (T - 1)) => hp k (Finset.mem_range.1 hk) (a (k + 1)) (a k)).fun_add
    (HasDerivAt.fun_sum fun k (hk : k ∈ Finset.range T) => hm k (Finset.mem_range.1 hk))).fun_neg
  refine hd.congr_deriv ?_
  obtain ⟨n', rfl⟩ : ∃ n', T = n' + 2 := ⟨T - 2, by omega⟩
  simp only [show n' + 2 - 1 = n' + 1 by omega] at e4 ⊢
  have hsum := sum_shift n' (fun k => (proc k (x k) (x (k - 1))).2) a ha
  simp only [Nat.add_sub_cancel] at hsum
  rw [hsum, Finset.sum_add_distrib, Finset.sum_range_succ' (fun k => (meas k (x k) m).2.1 ⬝ᵥ a k), ha, dotProduct_zero, add_zero, e3]
  have hg : ∑ i ∈ Finset.range (n' + 1), g i ⬝ᵥ a (i + 1) = -(∑ i ∈ Finset.range (n' + 1),
      ((proc (i + 1) (x (i + 1)) (x i)).2 - if i < n' then (proc (i + 2) (x (i + 2)) (x (i + 1))).2 else 0) ⬝ᵥ a (i + 1) +
      ∑ i ∈ Finset.range (n' + 1), (meas (i + 1) (x (i + 1)) m).2.1 ⬝ᵥ a (i + 1)) := by
    rw [← Finset.sum_add_distrib, ← Finset.sum_neg_distrib]
    refine Finset.sum_congr rfl fun i hi => ?_
    rw [e4 i (Finset.mem_range.1 hi), ← add_dotProduct, ← neg_dotProduct]
    simp only [Nat.add_lt_add_iff_right, Nat.add_sub_cancel, show i + 2 - 1 = i + 1 by omega]
  rw [hg]
  have hgl : (-∑ k ∈ Finset.range (n' + 2), (meas k (x k) m).2.2) ⬝ᵥ b = -∑ k ∈ Finset.range (n' + 2), (meas k (x k) m).2.2 ⬝ᵥ b := by
    rw [neg_dotProduct, sum_dotProduct]
  rw [hgl]
  have hi2 : ∀ i, (proc (i + 2) (x (i + 2)) (x (i + 2 - 1))).2 = (proc (i + 2) (x (i + 2)) (x (i + 1))).2 := fun i => rfl
  simp only [hi2]
  ring

/-- The condition holds for odometry on a line (`MotionModel_Odometry1d`: the prediction is the old pose plus the input). -/
theorem C110_odometry1d (n : Nat) (Q : Matrix (Fin n) (Fin n) ℝ) (hQ : Q.PosDef) (u new old : Fin n → ℝ) :
    DiffGrad (fun new old => (Motion.logLikelihood Q (old + u) new).1) new old (Motion.logLikelihood Q (old + u) new).2 := by
  intro a b
  have h := (MotionProps.C84_gradient_partial n Q (old + u) new (a - b) hQ).1
  refine h.congr_of_eventuallyEq (Filter.Eventually.of_forall fun t => ?_)
  simp only [Motion.logLikelihood]
  congr 1
  rw [smul_sub]
  abel

/-- The pose that planar odometry predicts (`MotionModel_Odometry2d::step`), times left out. -/
noncomputable def pred2d (u x : Fin 3 → ℝ) : Fin 3 → ℝ := ((Motion.step2d ⟨0, 0, ⟨0, 0⟩⟩ ⟨x, 0, ⟨0, 0⟩⟩ u ⟨0, 0⟩).map Motion.St.x).getD 0

/-- Cost and gradient with planar odometry with the identity as noise covariance and no measurement. -/
noncomputable def planar (u x : Nat → Fin 3 → ℝ) (T nT nI : Nat) : Option (ℝ × (Nat → Fin 3 → ℝ) × (Fin 0 → ℝ)) :=
  evaluate (fun k => Motion.logLikelihood 1 (pred2d (u k) (x (k - 1))) (x k)) (fun _ => ((0 : ℝ), (0 : Fin 3 → ℝ), (0 : Fin 0 → ℝ))) T nT nI

/-- **C110**, the full statement, for planar odometry: the gradient that `Evaluate` returns is the derivative of the cost along every change of the poses but the
first, wherever the cost is differentiable. -/
def C110_full : Prop := ∀ (u x a : Nat → Fin 3 → ℝ) (T nT nI : Nat) (v : ℝ), a 0 = 0 → 2 ≤ T → T ≤ nT → T ≤ nI + 1 →
  HasDerivAt (fun t : ℝ => ((planar u (along x a t) T nT nI).map Prod.fst).getD 0) v 0 →
  ∃ c g gl, planar u x T nT nI = some (c, g, gl) ∧ v = ∑ i ∈ Finset.range (T - 1), g i ⬝ᵥ a (i + 1)

theorem pred2d_eq (u x : Fin 3 → ℝ) : pred2d u x = ![x 0 + (Real.cos (x 2) * u 0 - Real.sin (x 2) * u 1), x 1 + (Real.sin (x 2) * u 0 + Real.cos (x 2) * u 1),
    Meas.atan2 (Real.sin (x 2 + u 2)) (Real.cos (x 2 + u 2))] := by
  have hadd : RFS.TimeStamp.add ⟨0, 0⟩ ⟨0, 0⟩ = some ⟨0, 0⟩ := by decide +kernel
  unfold pred2d Motion.step2d
  rw [hadd]
  ext i
  fin_cases i
  · simp [Motion.rotC, Matrix.mulVec, dotProduct, Fin.sum_univ_two]; ring
  · simp [Motion.rotC, Matrix.mulVec, dotProduct, Fin.sum_univ_two]
  · simp only [Motion.rotC, Option.map_some, Option.getD_some]
    simp [Matrix.mul_apply, Fin.sum_univ_two, Real.sin_add, Real.cos_add]
    congr 1 <;> ring

/-- **C110** is false of the code with planar odometry: turning pose 1 moves the prediction of pose 2, which the gradient leaves out. -/
theorem C110_violated : ¬ C110_full := by
  intro h
  let u : Nat → Fin 3 → ℝ := fun _ => ![1, 0, 0]
  let x : Nat → Fin 3 → ℝ := fun k => if k = 0 then 0 else if k = 1 then ![1, 0, 0] else ![2, 1, 0]
  let a : Nat → Fin 3 → ℝ := fun k => if k = 1 then ![0, 0, 1] else 0
  have hval : ∀ t : ℝ, -Real.pi < t → t ≤ Real.pi → ((planar u (along x a t) 3 3 2).map Prod.fst).getD 0 =
      1 / 2 * ((1 - Real.cos t) ^ 2 + (1 - Real.sin t) ^ 2 + 2 * t ^ 2) + 2 * Real.log √((2 * Real.pi) ^ 3) := by
    intro t h1 h2
    obtain ⟨c, g, gl, e1, e2, -⟩ := C110_assembly (fun k => Motion.logLikelihood 1 (pred2d (u k) (along x a t (k - 1))) (along x a t k))
      (fun _ => ((0 : ℝ), (0 : Fin 3 → ℝ), (0 : Fin 0 → ℝ))) 3 3 2 (by norm_num) (by norm_num) (by norm_num)
    unfold planar
    rw [e1]
    simp only [Option.map_some, Option.getD_some]
    rw [e2]
    have hat := Meas.atan2_polar one_pos h1 h2
    simp only [one_mul] at hat
    have h0 : Meas.atan2 0 1 = 0 := by
      have := Meas.atan2_polar one_pos (neg_lt_zero.2 Real.pi_pos) Real.pi_pos.le
      simpa using this
    simp [Finset.sum_range_succ, Motion.logLikelihood, Kalman.gaussianLog, Kalman.md2, pred2d_eq, along, u, x, a, dotProduct, Fin.sum_univ_three, hat, h0]
    ring
  have hder : HasDerivAt (fun t : ℝ => ((planar u (along x a t) 3 3 2).map Prod.fst).getD 0) (-1) 0 := by
    have h1 : HasDerivAt (fun t : ℝ => 1 / 2 * ((1 - Real.cos t) ^ 2 + (1 - Real.sin t) ^ 2 + 2 * t ^ 2) + 2 * Real.log √((2 * Real.pi) ^ 3)) (-1) 0 := by
      have hc := (Real.hasDerivAt_cos 0).const_sub 1
      have hs := (Real.hasDerivAt_sin 0).const_sub 1
      have ht := (hasDerivAt_id (0 : ℝ)).pow 2
      have := ((((hc.pow 2).add (hs.pow 2)).add (ht.const_mul 2)).const_mul (1 / 2)).add_const (2 * Real.log √((2 * Real.pi) ^ 3))
      exact this.congr_deriv (by simp)
    refine h1.congr_of_eventuallyEq ?_
    filter_upwards [Ioo_mem_nhds (neg_lt_zero.2 Real.pi_pos) Real.pi_pos] with t ht
    exact hval t ht.1 ht.2.le
  obtain ⟨c, g, gl, e1, e2⟩ := h u x a 3 3 2 (-1) (by simp [a]) (by norm_num) (by norm_num) (by norm_num) hder
  obtain ⟨c', g', gl', f1, -, -, f4⟩ := C110_assembly (fun k => Motion.logLikelihood 1 (pred2d (u k) (x (k - 1))) (x k))
      (fun _ => ((0 : ℝ), (0 : Fin 3 → ℝ), (0 : Fin 0 → ℝ))) 3 3 2 (by norm_num) (by norm_num) (by norm_num)
  have hg : g = g' := by
    unfold planar at e1
    rw [f1] at e1
    simp only [Option.some.injEq, Prod.mk.injEq] at e1
    exact e1.2.1.symm
  have h0 : Meas.atan2 0 1 = 0 := by
    have := Meas.atan2_polar one_pos (neg_lt_zero.2 Real.pi_pos) Real.pi_pos.le
    simpa using this
  have hg0 := congrFun (f4 0 (by norm_num)) 2
  simp [Motion.logLikelihood, pred2d_eq, u, x, h0] at hg0
  rw [hg] at e2
  simp [Finset.sum_range_succ, a, dotProduct, Fin.sum_univ_three, hg0] at e2

/-- Without inputs (one pose), or with the inputs given one by one (`time_` has one element less than there are poses), evaluating the cost reads outside. -/
theorem C110_ub {V R W : Type} [AddCommGroup V] [AddCommGroup R] [AddCommGroup W] (proc : Nat → R × V) (meas : Nat → R × V × W) (n : Nat) :
    evaluate proc meas 1 1 0 = none ∧ evaluate proc meas (n + 2) (n + 1) (n + 1) = none := by
  constructor
  · simp [evaluate, total]
  · unfold evaluate total
    rw [if_pos (by omega)]
    rfl

/-- Non-trivial instance of the hypotheses of `C110_gradient_partial`: odometry on a line, three poses, no measurement. -/
example (x : Nat → Fin 1 → ℝ) : ∀ k < 3 - 1, DiffGrad (fun new old => (Motion.logLikelihood 1 (old + ![1]) new).1) (x (k + 1)) (x k)
    (Motion.logLikelihood 1 (x k + ![1]) (x (k + 1))).2 := fun _ _ => C110_odometry1d 1 1 Matrix.PosDef.one _ _ _

end cost

end BatchProps
end RFS
