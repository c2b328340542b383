import Verif.Lemmas.MurtyDbl
import Verif.Props.HungDbl
import Verif.Props.Murty

set_option linter.unusedSectionVars false

/-!
Properties C236 and C237: the calls of `Murty::findNextBest` after the first one, in doubles. The specification `total` is that
of Props/HungDbl.lean. `Murty.PQ` is the contract of `std::priority_queue`, quantified over all implementations.
-/

namespace RFS
namespace MurtyDblRunsProps
open Dbl Hungarian HungDblProps MurtyDbl
open Murty (PQ Prm)

variable {n : Nat}

/-- The matrix after a first call that returned: close to the caller's, and the state of the object. -/
theorem after_first {rd : ℚ → ℚ} (hrd : Nearest rd) (Q : PQ ℚ n) (C : Fin n → Fin n → ℚ) (hC : ∀ x y, Rep (C x y))
    (hb : ∀ x y, |C x y| ≤ 1999) (block : Option (Nat × Nat)) (fuel : Nat) (hf : n * (n + 1) < fuel) (a : Fin n → Fin n) (s : ℚ)
    (h : call rd Q (Prm.make C 10000 block fuel) (start Q C) 0 = .found 1 a s) :
    ∃ C' : Fin n → Fin n → ℚ, Function.Bijective a ∧ s = dsum rd C' a ∧ (∀ x y, |C' x y - C x y| ≤ 1999 / 2 ^ 51) ∧
      (findNextBest rd Q (Prm.make C 10000 block fuel) (start Q C)).2 = ⟨1, Q.push Q.empty ⟨0, a, s, []⟩, C'⟩ := by
  have hfu : (Prm.make C 10000 block fuel).fuel = fuel := by unfold Prm.make; cases block <;> rfl
  simp only [call, findNextBest, start, if_true, first, hfu] at h ⊢
  rcases C233_safe_partial hrd C true fuel hf with e | ⟨b, C', hbij, e⟩
  · rw [e] at h; simp at h
  · rw [e] at h
    simp only [Murty.Ret.found.injEq, true_and] at h
    obtain ⟨rfl, rfl⟩ := h
    refine ⟨C', hbij, rfl, fun x y => C234_bound_partial hrd C hC true fuel hf 1999 hb b _ C' e x y, ?_⟩
    rw [e]

theorem total_close {C C' : Fin n → Fin n → ℚ} {e : ℚ} (h : ∀ x y, |C' x y - C x y| ≤ e) (σ : Fin n → Fin n) :
    |total C' σ - total C σ| ≤ n * e := by
  unfold total
  rw [← Finset.sum_sub_distrib]
  refine le_trans (Finset.abs_sum_le_sum_abs _ _) ?_
  refine le_trans (Finset.sum_le_sum fun x _ => h x (σ x)) ?_
  simp

theorem err_eq : err n 2000 = (n + 1) ^ 2 * (4000 / 2 ^ 53) := by
  unfold err
  push_cast
  ring

theorem err_le : err n 2000 + n * (1999 / 2 ^ 51) ≤ (n + 1) ^ 2 * (2 / 10 ^ 12) := by
  have h0 : (0 : ℚ) ≤ n := Nat.cast_nonneg n
  have h1 := err_eq (n := n)
  have h2 : (n : ℚ) * (1999 / 2 ^ 51) ≤ (n + 1) ^ 2 * (9 / 10 ^ 13) := by
    have : (n : ℚ) * (1999 / 2 ^ 51) ≤ n * (9 / 10 ^ 13) := mul_le_mul_of_nonneg_left (by norm_num) h0
    nlinarith
  have h3 : ((n : ℚ) + 1) ^ 2 * (4000 / 2 ^ 53) ≤ (n + 1) ^ 2 * (45 / 10 ^ 14) := mul_le_mul_of_nonneg_left (by norm_num) (by positivity)
  have h4 : (0 : ℚ) ≤ (n + 1) ^ 2 := by positivity
  rw [h1]
  linarith

theorem score_close {C C' : Fin n → Fin n → ℚ} (h : ∀ x y, |C' x y - C x y| ≤ 1999 / 2 ^ 51) {σ : Fin n → Fin n} {t : ℚ}
    (ht : |t - total C' σ| ≤ err n 2000) : |t - total C σ| ≤ (n + 1) ^ 2 * (2 / 10 ^ 12) := by
  have h1 := total_close h σ
  have h2 : t - total C σ = (t - total C' σ) + (total C' σ - total C σ) := by ring
  rw [h2]
  exact le_trans (abs_add_le _ _) (le_trans (add_le_add ht h1) err_le)

theorem first_close {rd : ℚ → ℚ} (hrd : Nearest rd) (hn : n + 1 ≤ 2 ^ 52) {C C' : Fin n → Fin n → ℚ}
    (hb : ∀ x y, |C x y| ≤ 1999) (h : ∀ x y, |C' x y - C x y| ≤ 1999 / 2 ^ 51) (a : Fin n → Fin n) :
    |dsum rd C' a - total C' a| ≤ err n 2000 := by
  refine first_err hrd hn C' (by norm_num) (fun x y => ?_) a
  have h2 : C' x y = C x y + (C' x y - C x y) := by ring
  rw [h2]
  refine le_trans (abs_add_le _ _) (le_trans (add_le_add (hb x y) (h x y)) ?_)
  norm_num

/-! ### C236: after a first call that returned, no call fails -/

/-- **C236**: with the default `bigNum` 10000, every matrix of doubles in [-1000, 1999], every real-assignment block, every
priority queue and every rounding to nearest: once the first call has returned an assignment, each later call returns `-1`,
or the next count with a permutation whose score is its total up to `(n+1)^2 * 2e-12`. No call uses a value that was never
written. -/
theorem C236_defined {rd : ℚ → ℚ} (hrd : Nearest rd) (Q : PQ ℚ n) (C : Fin n → Fin n → ℚ)
    (hC : ∀ x y, Rep (C x y) ∧ -1000 ≤ C x y ∧ C x y ≤ 1999) (block : Option (Nat × Nat)) (fuel : Nat)
    (hf : n * (n + 1) < fuel) (hn : n + 1 ≤ 2 ^ 52) (a : Fin n → Fin n) (s : ℚ)
    (h : call rd Q (Prm.make C 10000 block fuel) (start Q C) 0 = .found 1 a s) (i : Nat) :
    call rd Q (Prm.make C 10000 block fuel) (start Q C) (i + 1) = .noMore ∨
    ∃ (b : Fin n → Fin n) (t : ℚ), call rd Q (Prm.make C 10000 block fuel) (start Q C) (i + 1) = .found (i + 2) b t ∧
      Function.Bijective b ∧ |t - total C b| ≤ (n + 1) ^ 2 * (2 / 10 ^ 12) := by
  have hb : ∀ x y, |C x y| ≤ 1999 := fun x y => abs_le.2 ⟨by linarith [(hC x y).2.1], (hC x y).2.2⟩
  obtain ⟨C', hbij, hs, hcl, hst⟩ := after_first hrd Q C (fun x y => (hC x y).1) hb block fuel hf a s h
  have hR : (Prm.make C 10000 block fuel).nR ≤ n := by unfold Prm.make; cases block <;> simp
  have hbig : (Prm.make C 10000 block fuel).big = 10000 := by unfold Prm.make; cases block <;> rfl
  have hfu : (Prm.make C 10000 block fuel).fuel = fuel := by unfold Prm.make; cases block <;> rfl
  have key := calls_def hrd hbig hn (by rw [hfu]; exact hf) hR Q i ⟨1, Q.push Q.empty ⟨0, a, s, []⟩, C'⟩ (by simp) (by
      intro x y
      have := abs_le.1 (hcl x y)
      have h1 := (hC x y).2
      constructor
      · have : (1999 : ℚ) / 2 ^ 51 ≤ 1 := by norm_num
        linarith
      · have : (1999 : ℚ) / 2 ^ 51 ≤ 1 := by norm_num
        linarith) (by
      intro x hx
      rw [Q.elems_push, Q.elems_empty] at hx
      have hx' : x = ⟨0, a, s, []⟩ := by simpa using hx
      subst hx'
      exact ⟨hbij, by rw [hs]; exact first_close hrd hn hb hcl a, trivial⟩)
  have e : call rd Q (Prm.make C 10000 block fuel) (start Q C) (i + 1) =
      call rd Q (Prm.make C 10000 block fuel) ⟨1, Q.push Q.empty ⟨0, a, s, []⟩, C'⟩ i := by
    rw [← hst]; rfl
  rw [e]
  rcases key with k1 | ⟨r, b, t, k1, k2, k3, k4⟩
  · exact Or.inl k1
  · refine Or.inr ⟨b, t, ?_, k3, score_close hcl k4⟩
    rw [k1, k2]
    congr 1
    simp only
    omega

/-- Specification: the logarithm of a likelihood, not below -1000; `none` is likelihood zero. -/
def logLik (v : Option ℚ) : ℚ := v.elim (-1000) (max (-1000))

/-- Specification: the sum of the logarithms of the hypothesis `b`. Rows are landmarks, then one false alarm for each measurement;
columns are measurements, then one missed detection for each landmark. What is not allowed counts -1000. -/
def worth {nR nC : Nat} (l : Fin nR → Fin nC → Option ℚ) (miss : Fin nR → ℚ) (clut : Fin nC → ℚ)
    (b : Fin (nR + nC) → Fin (nR + nC)) : ℚ :=
  (∑ r : Fin nR, if h : (b (r.castAdd nC)).val < nC then logLik (l r ⟨_, h⟩)
      else if (b (r.castAdd nC)).val = nC + r.val then miss r else -1000) +
  ∑ c : Fin nC, if (b (c.natAdd nR)).val < nC then (if (b (c.natAdd nR)).val = c.val then clut c else -1000) else 0

theorem entry_eq (v : Option ℚ) : MurtyDbl.entry v = logLik v := by
  cases v with
  | none => rfl
  | some v =>
    simp only [MurtyDbl.entry, logLik, Option.elim]
    split
    · rw [max_eq_left (by linarith)]
    · rw [max_eq_right (by linarith)]

theorem total_extended {nR nC : Nat} (l : Fin nR → Fin nC → Option ℚ) (miss : Fin nR → ℚ) (clut : Fin nC → ℚ)
    (b : Fin (nR + nC) → Fin (nR + nC)) : total (extended l miss clut) b = worth l miss clut b := by
  unfold total worth
  rw [Fin.sum_univ_add]
  congr 1
  · refine Finset.sum_congr rfl fun r _ => ?_
    simp only [extended, MurtyLik.extMatrix, Fin.val_castAdd, r.isLt, dif_pos, entry_eq]
    split
    · rfl
    · rename_i h
      by_cases h2 : (b (r.castAdd nC)).val = nC + r.val
      · rw [if_pos (by omega), if_pos h2]
      · rw [if_neg (by omega), if_neg h2]
  · refine Finset.sum_congr rfl fun c _ => ?_
    simp only [extended, MurtyLik.extMatrix, Fin.val_natAdd]
    rw [dif_neg (by omega)]
    split
    · rename_i h
      by_cases h2 : (b (c.natAdd nR)).val = c.val
      · rw [if_pos (by omega), if_pos h2]
        congr 1
        exact Fin.ext h2
      · rw [if_neg (by omega), if_neg h2]
    · rfl

/-- **C236** for the matrices of the filters: logarithms of likelihoods, of `1 - Pd` and of clutter intensities are doubles up to
1999, those of `1 - Pd` and of the clutter not below -1000. Once the first call has returned, each later call returns `-1`, or the
next count with a permutation whose score is the sum of the logarithms of its hypothesis up to `(n+1)^2 * 2e-12`. -/
theorem C236_filters {rd : ℚ → ℚ} (hrd : Nearest rd) {nR nC : Nat} (Q : PQ ℚ (nR + nC)) (l : Fin nR → Fin nC → Option ℚ)
    (miss : Fin nR → ℚ) (clut : Fin nC → ℚ) (hl : ∀ r c v, l r c = some v → Rep v ∧ v ≤ 1999)
    (hm : ∀ r, Rep (miss r) ∧ -1000 ≤ miss r ∧ miss r ≤ 1999) (hc : ∀ c, Rep (clut c) ∧ -1000 ≤ clut c ∧ clut c ≤ 1999)
    (fuel : Nat) (hf : (nR + nC) * (nR + nC + 1) < fuel) (hn : nR + nC + 1 ≤ 2 ^ 52) (a : Fin (nR + nC) → Fin (nR + nC)) (s : ℚ)
    (h : call rd Q (Prm.make (extended l miss clut) 10000 (some (nR, nC)) fuel) (start Q (extended l miss clut)) 0 = .found 1 a s)
    (i : Nat) :
    call rd Q (Prm.make (extended l miss clut) 10000 (some (nR, nC)) fuel) (start Q (extended l miss clut)) (i + 1) = .noMore ∨
    ∃ (b : Fin (nR + nC) → Fin (nR + nC)) (t : ℚ),
      call rd Q (Prm.make (extended l miss clut) 10000 (some (nR, nC)) fuel) (start Q (extended l miss clut)) (i + 1) =
        .found (i + 2) b t ∧
      Function.Bijective b ∧ |t - worth l miss clut b| ≤ (nR + nC + 1 : ℚ) ^ 2 * (2 / 10 ^ 12) := by
  have r1 : Rep (-1000) := ⟨-1000, 0, by norm_num, by norm_num⟩
  have r0 : Rep 0 := ⟨0, 0, by norm_num, by norm_num⟩
  have hC : ∀ x y, Rep (extended l miss clut x y) ∧ -1000 ≤ extended l miss clut x y ∧ extended l miss clut x y ≤ 1999 := by
    intro x y
    have b1 : Rep (-1000) ∧ (-1000 : ℚ) ≤ -1000 ∧ (-1000 : ℚ) ≤ 1999 := ⟨r1, by norm_num, by norm_num⟩
    have b0 : Rep 0 ∧ (-1000 : ℚ) ≤ 0 ∧ (0 : ℚ) ≤ 1999 := ⟨r0, by norm_num, by norm_num⟩
    simp only [extended, MurtyLik.extMatrix]
    split
    · split
      · rename_i hx hy
        rcases e : l ⟨x.val, hx⟩ ⟨y.val, hy⟩ with _ | v
        · exact b1
        · simp only [MurtyDbl.entry]
          split
          · exact b1
          · exact ⟨(hl _ _ _ e).1, by linarith, (hl _ _ _ e).2⟩
      · split
        · exact hm _
        · exact b1
    · split
      · split
        · exact hc _
        · exact b1
      · exact b0
  have key := C236_defined hrd Q _ hC (some (nR, nC)) fuel hf hn a s h i
  simp only [total_extended] at key
  push_cast at key
  exact key

/-! ### C237: the enumeration in doubles -/

/-- **C237**: without a real-assignment block, for every matrix of doubles in `[lo, hi]` within [-1000, 1999] whose spread is
small against `bigNum`, and once the first call has returned an assignment `a`: there is a list of all permutations, each
once, that starts with `a`, in which from the second on nothing later is better by more than `n * 7e-12 + (n+1)^2 * 1e-12`,
and the `i`-th call returns the `i`-th of the list with its total up to `(n+1)^2 * 2e-12`, or `-1` when the list is over. -/
theorem C237_enumeration {rd : ℚ → ℚ} (hrd : Nearest rd) (Q : PQ ℚ n) (C : Fin n → Fin n → ℚ) (lo hi : ℚ)
    (hlo : -1000 ≤ lo) (hhi : hi ≤ 1999) (hC : ∀ x y, Rep (C x y) ∧ lo ≤ C x y ∧ C x y ≤ hi)
    (hsp : n * (hi - lo + 1 / 10 ^ 10) < 10000 + hi) (fuel : Nat)
    (hf : n * (n + 1) < fuel) (hn : n + 1 ≤ 2 ^ 52) (a : Fin n → Fin n) (s : ℚ)
    (h : call rd Q (Prm.make C 10000 none fuel) (start Q C) 0 = .found 1 a s) :
    ∃ L : List (Fin n → Fin n), L.Nodup ∧ (∀ σ, σ ∈ L ↔ Function.Bijective σ) ∧ L.head? = some a ∧
      L.tail.Pairwise (fun σ τ => total C τ ≤ total C σ + (n * (7 / 10 ^ 12) + (n + 1) ^ 2 * (1 / 10 ^ 12))) ∧
      ∀ i, (∀ b, L[i]? = some b → ∃ t, call rd Q (Prm.make C 10000 none fuel) (start Q C) i = .found (i + 1) b t ∧
          |t - total C b| ≤ (n + 1) ^ 2 * (2 / 10 ^ 12)) ∧
        (L[i]? = none → call rd Q (Prm.make C 10000 none fuel) (start Q C) i = .noMore) := by
  classical
  have hb : ∀ x y, |C x y| ≤ 1999 := fun x y => abs_le.2 ⟨by linarith [(hC x y).2.1], by linarith [(hC x y).2.2]⟩
  obtain ⟨C', hbij, hs, hcl, hst⟩ := after_first hrd Q C (fun x y => (hC x y).1) hb none fuel hf a s h
  have hn0 : (0 : ℚ) ≤ n := Nat.cast_nonneg n
  let root : Murty.Node ℚ n := ⟨0, a, s, []⟩
  have hel : Q.elems (Q.push Q.empty root) = {root} := by rw [Q.elems_push, Q.elems_empty]; rfl
  have hsc : |s - total C' a| ≤ err n 2000 := by rw [hs]; exact first_close hrd hn hb hcl a
  have hroot : NodeD C' (err n 2000) root := ⟨hbij, hsc, trivial⟩
  let st1 : St ℚ n Q := ⟨1, Q.push Q.empty root, C'⟩
  have hinv : MurtyDbl.Inv C' [] (Q.elems st1.pq) := by
    simp only [st1, hel]
    constructor
    · intro x hx
      rw [Multiset.mem_singleton.1 hx]
      exact ⟨hroot, hbij, fun _ _ => rfl, fun _ => by simp [Murty.forb, root]⟩
    · intro σ hσ
      have : Murty.InNode σ root := ⟨hσ, by simp [root], fun _ => by simp [Murty.forb, root]⟩
      have h2 : ({root} : Multiset (Murty.Node ℚ n)) = root ::ₘ 0 := rfl
      rw [h2, Multiset.countP_cons]
      simp [this]
  have hsp' : (n : ℚ) * (hi + 1999 / 2 ^ 51 - (lo - 1999 / 2 ^ 51)) + n * (5 / 10 ^ 12) < 10000 + (hi + 1999 / 2 ^ 51) := by
    have e1 : (n : ℚ) * (hi + 1999 / 2 ^ 51 - (lo - 1999 / 2 ^ 51)) + n * (5 / 10 ^ 12) =
        n * (hi - lo) + n * (2 * (1999 / 2 ^ 51) + 5 / 10 ^ 12) := by ring
    have e2 : (n : ℚ) * (2 * (1999 / 2 ^ 51) + 5 / 10 ^ 12) ≤ n * (1 / 10 ^ 10) := mul_le_mul_of_nonneg_left (by norm_num) hn0
    have e3 : (0 : ℚ) < 1999 / 2 ^ 51 := by norm_num
    rw [e1]
    rw [mul_add] at hsp
    linarith
  obtain ⟨L, l1, l2, l3, -, l4, l5⟩ := run_from (prm := ⟨C', 10000, n, n, fuel⟩) hrd (lo := lo - 1999 / 2 ^ 51)
    (hi := hi + 1999 / 2 ^ 51) (by norm_num; linarith) (by norm_num; linarith) (by
      intro x y
      have h1 := abs_le.1 (hcl x y)
      have h2 := (hC x y).2
      constructor <;> simp only <;> linarith [h1.1, h1.2, h2.1, h2.2]) hsp' rfl le_rfl rfl hn hf Q _ [] st1 (by simp [st1]) rfl hinv (by
      intro p h' e x hx
      have e1 := (Q.pop_some _ p h' e).1
      simp only [st1, hel] at e1
      have : (Q.elems h') = 0 := by
        have hc := congrArg Multiset.card e1
        simp only [Multiset.card_singleton, Multiset.card_cons] at hc
        exact Multiset.card_eq_zero.1 (by omega)
      rw [this] at hx
      simp at hx) le_rfl
  have hhead : L.head? = some a := by
    cases hpop : Q.pop st1.pq with
    | none =>
      have := Q.pop_none _ hpop
      simp only [st1, hel] at this
      simp at this
    | some xh =>
      have h1 := (Q.pop_some _ xh.1 xh.2 hpop).1
      have h2 : xh.1 ∈ Q.elems st1.pq := by rw [h1]; simp
      simp only [st1, hel] at h2
      rw [l4 xh.1 xh.2 hpop, Multiset.mem_singleton.1 h2]
  refine ⟨L, l1, fun σ => by simp [l2], hhead, l3.imp ?_, ?_⟩
  · intro σ τ hστ
    unfold MurtyDbl.NoBetter at hστ
    have h1 := abs_le.1 (total_close hcl σ)
    have h2 := abs_le.1 (total_close hcl τ)
    have e1 : Murty.total C' σ = total C' σ := rfl
    have e2 : Murty.total C' τ = total C' τ := rfl
    simp only [e1, e2] at hστ
    have h3 : 2 * err n 2000 ≤ ((n : ℚ) + 1) ^ 2 * (1 / 10 ^ 12) := by
      have h6 : ((n : ℚ) + 1) ^ 2 * (2 * (4000 / 2 ^ 53)) ≤ (n + 1) ^ 2 * (1 / 10 ^ 12) :=
        mul_le_mul_of_nonneg_left (by norm_num) (by positivity)
      have h7 := err_eq (n := n)
      rw [h7]
      linarith
    have h4 : (n : ℚ) * (1999 / 2 ^ 51) ≤ n * (1 / 10 ^ 12) := mul_le_mul_of_nonneg_left (by norm_num) hn0
    have h5 : (n : ℚ) * (5 / 10 ^ 12) + 2 * (n * (1 / 10 ^ 12)) = n * (7 / 10 ^ 12) := by ring
    linarith [h1.1, h1.2, h2.1, h2.2]
  · intro i
    cases i with
    | zero =>
      rw [← List.head?_eq_getElem?, hhead]
      refine ⟨?_, by simp⟩
      rintro b ⟨⟩
      exact ⟨s, h, score_close hcl hsc⟩
    | succ i =>
      have e : call rd Q (Prm.make C 10000 none fuel) (start Q C) (i + 1) =
          call rd Q ⟨C', 10000, n, n, fuel⟩ st1 i := by
        have e0 : ∀ (st : St ℚ n Q), findNextBest rd Q (Prm.make C 10000 none fuel) st = findNextBest rd Q ⟨C', 10000, n, n, fuel⟩ st :=
          fun _ => rfl
        have e1 : ∀ (i : Nat) (st : St ℚ n Q), call rd Q (Prm.make C 10000 none fuel) st i = call rd Q ⟨C', 10000, n, n, fuel⟩ st i := by
          intro i
          induction i with
          | zero => intro st; rfl
          | succ i ih => intro st; simp only [call, e0, ih]
        rw [← e1]
        show call rd Q _ (findNextBest rd Q _ (start Q C)).2 i = _
        rw [hst]
      have h5 := l5 i
      rw [e]
      unfold Gives at h5
      rw [List.head?_drop] at h5
      constructor
      · intro b hb'
        rw [hb'] at h5
        obtain ⟨t, h6, h7⟩ := h5
        refine ⟨t, ?_, score_close hcl h7⟩
        rw [h6]
        simp only [st1]
        congr 1
        omega
      · intro hb'
        rw [hb'] at h5
        exact h5

/-- Three landmarks' worth of scores in tenths, with entries of both signs. -/
def exD : Fin 3 → Fin 3 → ℚ := fun x y => rnd ((([[31, -7, 2], [12, 43, -1000], [5, 9, -16]] : List (List ℚ)).getD x.val []).getD y.val 0 / 10)

/-- The values returned by the seven first calls: all six permutations, and then `-1`. -/
def shown (i : Nat) : Option (List Nat) :=
  match call rnd (MurtyProps.listPQ ℚ 3) (Prm.make exD 10000 none 13) (start _ exD) i with
  | .found _ a _ => some ((List.finRange 3).map fun x => (a x).val)
  | _ => none

example : (List.range 7).map shown =
    [some [0, 1, 2], some [2, 1, 0], some [2, 0, 1], some [1, 0, 2], some [0, 2, 1], some [1, 2, 0], none] := by decide +kernel

/-- The matrix meets the hypotheses of both theorems. -/
example : (∀ x y, Rep (exD x y)) ∧ (∀ x y, (-100 : ℚ) ≤ exD x y ∧ exD x y ≤ 5) ∧ (3 : ℚ) * (5 - -100 + 1 / 10 ^ 10) < 10000 + 5 :=
  ⟨fun _ _ => rep_rnd _, by decide +kernel, by norm_num⟩

/-- One landmark and two measurements, the second of which it cannot have caused. -/
def exL : Fin 1 → Fin 2 → Option ℚ := fun _ c => if c = 0 then some (rnd (31 / 10)) else none
def exMiss : Fin 1 → ℚ := fun _ => rnd (-7 / 10)
def exClut : Fin 2 → ℚ := fun c => if c = 0 then rnd (-12 / 10) else rnd (-23 / 10)

def shownL (i : Nat) : Option (List Nat × ℚ) :=
  match call rnd (MurtyProps.listPQ ℚ 3) (Prm.make (extended exL exMiss exClut) 10000 (some (1, 2)) 13) (start _ (extended exL exMiss exClut)) i with
  | .found _ a s => some ((List.finRange 3).map fun x => (a x).val, worth exL exMiss exClut a - s)
  | _ => none

/-- The matrix meets the hypotheses of `C236_filters`; the first call finds the landmark detected and the second measurement a false
alarm, the second call the landmark missed, the third call the association that is not allowed; the fourth returns `-1`. -/
example : (∀ r c v, exL r c = some v → Rep v ∧ v ≤ 1999) ∧ (∀ r, Rep (exMiss r) ∧ -1000 ≤ exMiss r ∧ exMiss r ≤ 1999) ∧
    (∀ c, Rep (exClut c) ∧ -1000 ≤ exClut c ∧ exClut c ≤ 1999) ∧
    (List.range 4).map (fun i => (shownL i).map (·.1)) = [some [0, 2, 1], some [2, 0, 1], some [1, 0, 2], none] := by
  refine ⟨?_, fun r => ⟨rep_rnd _, by revert r; decide +kernel, by revert r; decide +kernel⟩, fun c => ⟨?_, ?_⟩, by decide +kernel⟩
  · intro r c v h
    unfold exL at h
    split at h
    · cases h
      exact ⟨rep_rnd _, by decide +kernel⟩
    · cases h
  · unfold exClut
    split <;> exact rep_rnd _
  · revert c; decide +kernel

end MurtyDblRunsProps
end RFS
