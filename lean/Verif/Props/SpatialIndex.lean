import Verif.Lemmas.SpatialIndex
import Mathlib.Analysis.SpecialFunctions.Pow.Real
import Mathlib.Data.Rat.Floor
import Mathlib.Algebra.Field.Rat
import Mathlib.Algebra.Order.Ring.Rat
import Mathlib.Tactic.NormNum

/-!
Properties C35 to C38: spatial index tree.
-/

set_option linter.unusedSectionVars false

namespace RFS
namespace SITProps
open SIT

variable {K : Type*} [Field K] [LinearOrder K] [IsStrictOrderedRing K] [FloorRing K] {D : Type*} [DecidableEq D] {d : Nat} (I : Idx K D d)

/-- Trees reachable through the public functions, with the multiset of data that were added and not removed. -/
inductive Reach : Tree K D d → Multiset D → Prop
  | init : Reach (init I) 0
  | add (t t' : Tree K D d) (m : Multiset D) (x : D) (fuel : Nat) (h : Reach t m) (e : addData I fuel t x = some t') : Reach t' (x ::ₘ m)
  | removed (t t' : Tree K D d) (m : Multiset D) (x : D) (h : Reach t m) (e : removeData I t x = some (true, t')) : Reach t' (m.erase x)
  | notFound (t t' : Tree K D d) (m : Multiset D) (x : D) (h : Reach t m) (e : removeData I t x = some (false, t')) : Reach t' m

/-- The data stored in the leaves whose closed box contains them (a leaf at corner `lo` of level `k` has edge `mn·2^k`). -/
def inLeaf : Tree K D d → D → Nat
  | .leaf lo k data, x => if ∀ i, lo i ≤ I.pos x i ∧ I.pos x i ≤ lo i + I.mn * 2 ^ k then data.count x else 0
  | .node _ _ _ ch, x => ∑ i, inLeaf (ch i) x

theorem inLeaf_eq (t : Tree K D d) (h : WF I t) (x : D) : inLeaf I t x = (items t).count x := by
  induction t with
  | leaf lo k data =>
    simp only [inLeaf, items, Multiset.coe_count]
    split
    · rfl
    · rename_i hc
      symm
      rw [List.count_eq_zero]
      intro hmem
      exact hc (h x hmem)
  | node lo k n ch ih =>
    obtain ⟨k', -, -, hch⟩ := h
    simp only [inLeaf, items, Multiset.count_sum']
    exact Finset.sum_congr rfl fun i _ => ih i (hch i).2.2

theorem remove_spec (hm : 0 < I.mn) (t : Tree K D d) (hr : Root I t) (x : D) (b : Bool) (t' : Tree K D d)
    (e : removeData I t x = some (b, t')) :
    Root I t' ∧ (b = true → x ∈ items t ∧ items t' = (items t).erase x) ∧ (b = false → t' = t) := by
  unfold removeData at e
  split at e
  · rename_i hin
    obtain ⟨found, t1, check, e1, w, l1, l2, hf, hnf, hl⟩ := removeRec_spec I hm x t true hr.1 hin
    rw [e1] at e
    simp only [Option.map_some, Option.some.injEq, Prod.mk.injEq] at e
    obtain ⟨rfl, rfl⟩ := e
    refine ⟨⟨w, ?_⟩, hf, fun h => (hnf h).1⟩
    obtain ⟨_, k', n, ch, rfl⟩ := hr
    have hl' := hl rfl rfl
    cases t1 with
    | leaf lo k data => simp [Tree.isLeaf] at hl'
    | node lo k n2 ch2 =>
      simp only [Tree.lo, Tree.level] at l1 l2
      subst l1; subst l2
      exact ⟨k', n2, ch2, rfl⟩
  · exact absurd e (by simp)

/-- Every reachable tree is a well-formed root holding exactly the remaining data. -/
theorem reach_root (hm : 0 < I.mn) (t : Tree K D d) (m : Multiset D) (h : Reach I t m) : Root I t ∧ items t = m := by
  induction h with
  | init => exact root_init I
  | add t t' m x fuel h e ih =>
    obtain ⟨r, i⟩ := addData_some I hm fuel t t' x ih.1 e
    exact ⟨r, by rw [i, ih.2]⟩
  | removed t t' m x h e ih =>
    obtain ⟨r, f, _⟩ := remove_spec I hm t ih.1 x true t' e
    exact ⟨r, by rw [(f rfl).2, ih.2]⟩
  | notFound t t' m x h e ih =>
    obtain ⟨r, _, f⟩ := remove_spec I hm t ih.1 x false t' e
    exact ⟨r, by rw [f rfl, ih.2]⟩

/-- C35: after any history every datum is stored exactly as often as it was added and not removed, always in a leaf whose closed box
contains it, and the root's counter is the number of data. -/
theorem C35_stored (hm : 0 < I.mn) (t : Tree K D d) (m : Multiset D) (h : Reach I t m) :
    items t = m ∧ t.size = Multiset.card m ∧ ∀ x, inLeaf I t x = m.count x := by
  obtain ⟨r, i⟩ := reach_root I hm t m h
  refine ⟨i, by rw [← i]; exact size_eq I t r.1, fun x => by rw [← i]; exact inLeaf_eq I t r.1 x⟩

/-- Adding always succeeds: the loop that enlarges the root ends. -/
theorem C35_add_total (hm : 0 < I.mn) (t : Tree K D d) (m : Multiset D) (h : Reach I t m) (x : D) :
    ∃ F, ∀ fuel, F ≤ fuel → ∃ t', addData I fuel t x = some t' ∧ Reach I t' (x ::ₘ m) := by
  obtain ⟨r, i⟩ := reach_root I hm t m h
  obtain ⟨F, hF⟩ := addData_total I hm t r x
  refine ⟨F, fun fuel hf => ?_⟩
  obtain ⟨t', e⟩ := hF fuel hf
  exact ⟨t', e, Reach.add t t' m x fuel h e⟩

/-- C36 (partial): everything returned by a box query lies in the closed box and is returned no more often than it is stored; every
stored point strictly inside the box is returned exactly as often as it is stored. Missing: points on the faces of the query box
(`C36_violated`). -/
theorem C36_box_query_partial (hm : 0 < I.mn) (t : Tree K D d) (m : Multiset D) (h : Reach I t m) (qmin qmax : Fin d → K) :
    (∀ x ∈ queryDataInBox I t qmin qmax, ∀ i, qmin i ≤ I.pos x i ∧ I.pos x i ≤ qmax i) ∧
      (∀ x, (queryDataInBox I t qmin qmax).count x ≤ m.count x) ∧
      ∀ x, (∀ i, qmin i < I.pos x i ∧ I.pos x i < qmax i) → (queryDataInBox I t qmin qmax).count x = m.count x := by
  obtain ⟨r, i⟩ := reach_root I hm t m h
  obtain ⟨w, hle⟩ := descend_wf I qmin qmax t r.1
  have hc := collect_count I hm qmin qmax _ w
  refine ⟨fun x hx => ?_, fun x => ?_, fun x hx => ?_⟩
  · have h1 : 0 < (queryDataInBox I t qmin qmax).count x := List.count_pos_iff.2 hx
    unfold queryDataInBox at h1
    rw [hc x] at h1
    split at h1
    · rename_i hq
      exact fun j => ⟨(hq j).2, (hq j).1⟩
    · omega
  · unfold queryDataInBox
    rw [hc x, ← i]
    split
    · exact Multiset.count_le_of_le x hle
    · exact Nat.zero_le _
  · unfold queryDataInBox
    rw [hc x, if_pos (show inQuery qmin qmax (I.pos x) from fun j => ⟨(hx j).2.le, (hx j).1.le⟩), descend_count I hm qmin qmax t r.1 x hx, i]

/-- One-dimensional index over the rationals with minimal box size 1. -/
def ex1 (pos : Nat → Rat) : Idx Rat Nat 1 := ⟨1, fun n _ => pos n⟩

/-- A point at 0 is not found by the query `[0, 1]`. -/
theorem C36_violated : ∃ t, Reach (ex1 fun _ => 0) t {7} ∧
    queryDataInBox (ex1 fun _ => 0) t (fun _ => 0) (fun _ => 1) = [] := by
  cases h : addData (ex1 fun _ => 0) 5 (init (ex1 fun _ => 0)) 7 with
  | none =>
    have : (addData (ex1 fun _ => 0) 5 (init (ex1 fun _ => 0)) 7).isSome = true := by decide +kernel
    rw [h] at this; exact absurd this (by decide)
  | some t =>
    refine ⟨t, Reach.add _ _ 0 7 5 Reach.init h, ?_⟩
    have : (addData (ex1 fun _ => 0) 5 (init (ex1 fun _ => 0)) 7).map
        (fun t => queryDataInBox (ex1 fun _ => 0) t (fun _ => 0) (fun _ => 1)) = some [] := by decide +kernel
    rw [h] at this
    exact Option.some.inj this

/-- C37: on a non-empty index the nearest-neighbour query returns a stored point of minimal distance, for every query point. `nrm` is any
function with the defining properties of the Euclidean norm. -/
theorem C37_nearest (hm : 0 < I.mn) (nrm : (Fin d → K) → K) (hnrm : IsNorm nrm) (t : Tree K D d) (m : Multiset D) (h : Reach I t m) (hne : m ≠ 0)
    (q : Fin d → K) :
    ∃ y, queryClosestPt I nrm t q = some y ∧ y ∈ m ∧ ∀ z ∈ m, nrm (fun i => I.pos y i - q i) ≤ nrm (fun i => I.pos z i - q i) := by
  obtain ⟨r, i⟩ := reach_root I hm t m h
  have hs : 0 < t.size := by rw [size_eq I t r.1, i]; exact Multiset.card_pos.2 hne
  obtain ⟨y, ey, my⟩ : ∃ y, (if inside t.lo (I.sz t.level) q then seed I q t else anyDatum t) = some y ∧ y ∈ items t := by
    split
    · rename_i hin; exact seed_spec I q t r.1 hin hs
    · exact anyDatum_spec I t r.1 hs
  unfold queryClosestPt
  rw [ey]
  simp only
  set nd : D → K := fun z => nrm fun i => I.pos z i - q i with hnd
  obtain ⟨w, hle⟩ := descend_wf I (fun i => q i - nd y) (fun i => q i + nd y) t r.1
  have hv := visit_spec I hm nrm hnrm q (items t) _ w (y, nd y) my rfl (fun z hz => Multiset.mem_of_le hle hz)
  obtain ⟨a, b, c, e⟩ := hv
  refine ⟨_, rfl, by rw [← i]; exact a, fun z hz => ?_⟩
  rw [← i] at hz
  have b' : (nrm fun i => I.pos (visit I nd q (descend I (fun i => q i - nd y) (fun i => q i + nd y) t) (y, nd y)).1 i - q i)
      = (visit I nd q (descend I (fun i => q i - nd y) (fun i => q i + nd y) t) (y, nd y)).2 := b.symm
  rw [b']
  by_cases hzr : nd z < nd y
  · apply e
    have hcnt := descend_count I hm (fun i => q i - nd y) (fun i => q i + nd y) t r.1 z (fun j => by
      have h1 := hnrm.abs_le (fun i => I.pos z i - q i) j
      have h2 := abs_lt.1 (h1.trans_lt hzr)
      constructor <;> linarith [h2.1, h2.2])
    rw [← Multiset.count_pos, hcnt, Multiset.count_pos]
    exact hz
  · exact c.trans (not_lt.1 hzr)

/-- The norm contract has a model over the reals. -/
noncomputable example : IsNorm (K := ℝ) (d := d) fun v => Real.sqrt (∑ i, v i * v i) where
  nonneg _ := Real.sqrt_nonneg _
  sq _ := Real.mul_self_sqrt (Finset.sum_nonneg fun _ _ => mul_self_nonneg _)

/-- On an empty index the query dereferences the missing parent of the root. -/
theorem C37_empty_undefined (nrm : (Fin 1 → Rat) → Rat) : queryClosestPt (ex1 fun _ => 0) nrm (init (ex1 fun _ => 0)) (fun _ => 0) = none := by
  have h : (if inside (init (ex1 fun _ => 0)).lo ((ex1 fun _ => 0).sz (init (ex1 fun _ => 0)).level) (fun _ => 0) then
      seed (ex1 fun _ => 0) (fun _ => 0) (init (ex1 fun _ => 0)) else anyDatum (init (ex1 fun _ => 0))) = none := by decide +kernel
  unfold queryClosestPt
  rw [h]

/-- C38 (partial): a stored point no coordinate of which is a multiple of the minimal box size can be removed: `removeData` returns true and
exactly that point is gone. Missing: points on the grid, which may be stored in another box than the one `removeData` looks in
(`C38_violated`). -/
theorem C38_remove_partial (hm : 0 < I.mn) (t : Tree K D d) (m : Multiset D) (h : Reach I t m) (x : D) (hx : x ∈ m)
    (hgrid : ∀ (i : Fin d) (z : ℤ), I.pos x i ≠ z * I.mn) :
    ∃ t', removeData I t x = some (true, t') ∧ Reach I t' (m.erase x) ∧ items t' = m.erase x := by
  obtain ⟨r, i⟩ := reach_root I hm t m h
  rw [← i] at hx
  have hin := inside_of_mem I hm t r.1 x hx
  obtain ⟨t', check, e⟩ := removeRec_found I hm x hgrid t true r.1 (root_onGrid I t r) hx
  have e' : removeData I t x = some (true, t') := by
    unfold removeData
    rw [if_pos hin, e]; rfl
  have hr := Reach.removed t t' m x h e'
  exact ⟨t', e', hr, (reach_root I hm t' _ hr).2⟩

/-- Whatever it returns, `removeData` of a point inside the root box never touches any other point, and `true` means the point is gone. -/
theorem C38_remove_exact (hm : 0 < I.mn) (t : Tree K D d) (m : Multiset D) (h : Reach I t m) (x : D) (b : Bool) (t' : Tree K D d)
    (e : removeData I t x = some (b, t')) : (b = true → x ∈ m ∧ items t' = m.erase x) ∧ (b = false → t' = t) := by
  obtain ⟨r, i⟩ := reach_root I hm t m h
  obtain ⟨_, h1, h2⟩ := remove_spec I hm t r x b t' e
  rw [i] at h1
  exact ⟨h1, h2⟩

/-- Datum 0 at −1, datum 1 at 2. After the root was enlarged for datum 1, datum 0 is stored but not found. -/
theorem C38_violated : ∃ t, Reach (ex1 fun n => if n = 0 then -1 else 2) t {1, 0} ∧
    ∃ t', removeData (ex1 fun n => if n = 0 then -1 else 2) t 0 = some (false, t') := by
  set I := ex1 fun n => if n = 0 then -1 else 2 with hI
  have hev : ((addData I 5 (init I) 0).bind fun t => (addData I 5 t 1).bind fun t2 => (removeData I t2 0).map Prod.fst) = some false := by
    rw [hI]; decide +kernel
  cases h1 : addData I 5 (init I) 0 with
  | none => rw [h1] at hev; exact absurd hev (by simp)
  | some t1 =>
    rw [h1, Option.bind_some] at hev
    cases h2 : addData I 5 t1 1 with
    | none => rw [h2] at hev; exact absurd hev (by simp)
    | some t2 =>
      rw [h2, Option.bind_some] at hev
      refine ⟨t2, Reach.add _ _ _ 1 5 (Reach.add _ _ 0 0 5 Reach.init h1) h2, ?_⟩
      cases h3 : removeData I t2 0 with
      | none => rw [h3] at hev; exact absurd hev (by simp)
      | some r =>
        obtain ⟨b, t'⟩ := r
        rw [h3] at hev
        simp only [Option.map_some, Option.some.injEq] at hev
        exact ⟨t', by rw [hev]⟩

/-- Asking for the removal of a point outside the root box is undefined. -/
theorem C38_outside_undefined : removeData (ex1 fun _ => 5) (init (ex1 fun _ => 5)) 0 = none := by
  unfold removeData
  rw [if_neg (by decide +kernel)]

/-- The theorems apply: an off-grid point can be stored and removed. -/
example : ((addData (ex1 fun _ => 1/2) 5 (init (ex1 fun _ => 1/2)) 3).bind fun t => (removeData (ex1 fun _ => 1/2) t 3).map fun r =>
    (r.1, r.2.size)) = some (true, 0) := by decide +kernel

end SITProps
end RFS
