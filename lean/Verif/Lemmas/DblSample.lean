import Verif.Lemmas.DblRound
import Mathlib.Algebra.Order.Ring.Pow
import Mathlib.Order.Bounds.Basic
import Mathlib.Algebra.Order.BigOperators.Group.List

/-!
Facts about the sampling loop of `ParticleFilter::resample` in rounded arithmetic.
-/

namespace RFS
namespace Dbl

/-- Rounded sum of `v 0, …, v k`, added from left to right. -/
def rsum (rd : ℚ → ℚ) (v : ℕ → ℚ) : ℕ → ℚ
  | 0 => v 0
  | k + 1 => rd (rsum rd v k + v (k + 1))

/-- The points `off`, `off + iv`, `off + iv + iv`, … in rounded arithmetic. -/
def point (rd : ℚ → ℚ) (iv off : ℚ) : ℕ → ℚ
  | 0 => off
  | i + 1 => rd (point rd iv off i + iv)

theorem advance_spec (rd : ℚ → ℚ) (vs : List ℚ) (v : ℕ → ℚ) (hv : ∀ i, (h : i < vs.length) → vs[i] = v i) (sp : ℚ) :
    ∀ fuel idx, idx < vs.length → vs.length < idx + fuel + 1 →
      (advance rd (vs.map some) (some sp) fuel idx (some (rsum rd v idx)) = none ∧
          ∀ j, idx ≤ j → j < vs.length → rsum rd v j < sp) ∨
        ∃ j, idx ≤ j ∧ j < vs.length ∧
          advance rd (vs.map some) (some sp) fuel idx (some (rsum rd v idx)) = some (j, some (rsum rd v j)) ∧
          sp ≤ rsum rd v j ∧ ∀ i, idx ≤ i → i < j → rsum rd v i < sp := by
  intro fuel
  induction fuel with
  | zero => intro idx h1 h2; omega
  | succ fuel ih =>
    intro idx h1 h2
    by_cases hlt : rsum rd v idx < sp
    · by_cases hend : idx + 1 < vs.length
      · have hg : (vs.map some)[idx + 1]? = some (some (v (idx + 1))) := by
          rw [List.getElem?_map, List.getElem?_eq_getElem hend, hv _ hend]; rfl
        have hst : advance rd (vs.map some) (some sp) (fuel + 1) idx (some (rsum rd v idx)) =
            advance rd (vs.map some) (some sp) fuel (idx + 1) (some (rsum rd v (idx + 1))) := by
          simp only [advance, flt, hlt, decide_true, if_true, hg]
          rfl
        rw [hst]
        rcases ih (idx + 1) hend (by omega) with ⟨ha, hb⟩ | ⟨j, hj1, hj2, hj3, hj4, hj5⟩
        · refine Or.inl ⟨ha, ?_⟩
          intro j hj hjl
          rcases Nat.eq_or_lt_of_le hj with rfl | h
          · exact hlt
          · exact hb j h hjl
        · refine Or.inr ⟨j, by omega, hj2, hj3, hj4, ?_⟩
          intro i hi hij
          rcases Nat.eq_or_lt_of_le hi with rfl | h
          · exact hlt
          · exact hj5 i h hij
      · refine Or.inl ⟨?_, ?_⟩
        · have hg : (vs.map some)[idx + 1]? = none := by
            rw [List.getElem?_eq_none]; simp; omega
          simp only [advance, flt, hlt, decide_true, if_true, hg]
        · intro j hj hjl
          have : j = idx := by omega
          rw [this]; exact hlt
    · refine Or.inr ⟨idx, le_refl _, h1, ?_, not_lt.mp hlt, ?_⟩
      · simp [advance, flt, hlt]
      · intro i hi hij; omega

theorem sampleLoop_none (rd : ℚ → ℚ) (vs : List ℚ) (v : ℕ → ℚ) (hv : ∀ i, (h : i < vs.length) → vs[i] = v i) (iv off : ℚ) :
    ∀ k i idx, idx < vs.length → (∃ m, m < k ∧ ∀ j, j < vs.length → rsum rd v j < point rd iv off (i + m)) →
      sampleLoop rd (vs.map some) iv k (point rd iv off i) idx (some (rsum rd v idx)) = none := by
  intro k
  induction k with
  | zero => rintro i idx _ ⟨m, hm, _⟩; omega
  | succ k ih =>
    rintro i idx hidx ⟨m, hm, hbad⟩
    rcases advance_spec rd vs v hv (point rd iv off i) (vs.length + 1) idx hidx (by omega) with
      ⟨ha, _⟩ | ⟨j, hj1, hj2, hj3, hj4, _⟩
    · simp only [sampleLoop, List.length_map, ha]
    · have hm0 : m ≠ 0 := by
        rintro rfl
        exact absurd (hbad j hj2) (not_lt.mpr hj4)
      have := ih (i + 1) j hj2 ⟨m - 1, by omega, by
        intro j' hj'
        have := hbad j' hj'
        rwa [show i + 1 + (m - 1) = i + m by omega]⟩
      simp only [sampleLoop, List.length_map, hj3]
      rw [show rd (point rd iv off i + iv) = point rd iv off (i + 1) from rfl, this]
      rfl

theorem sampleLoop_some (rd : ℚ → ℚ) (vs : List ℚ) (v : ℕ → ℚ) (hv : ∀ i, (h : i < vs.length) → vs[i] = v i) (iv off : ℚ)
    (hmono : ∀ i, point rd iv off i ≤ point rd iv off (i + 1)) :
    ∀ k i idx, idx < vs.length → (∀ m, m < k → ∃ j, j < vs.length ∧ point rd iv off (i + m) ≤ rsum rd v j) →
      (∀ j, j < idx → rsum rd v j < point rd iv off i) →
      ∃ L, sampleLoop rd (vs.map some) iv k (point rd iv off i) idx (some (rsum rd v idx)) = some L ∧ L.length = k ∧
        ∀ m, (h : m < L.length) → IsLeast {j | j < vs.length ∧ point rd iv off (i + m) ≤ rsum rd v j} L[m] := by
  intro k
  induction k with
  | zero => intro i idx _ _ _; exact ⟨[], rfl, rfl, by intro m h; simp at h⟩
  | succ k ih =>
    intro i idx hidx hok hinv
    rcases advance_spec rd vs v hv (point rd iv off i) (vs.length + 1) idx hidx (by omega) with
      ⟨_, hb⟩ | ⟨j, hj1, hj2, hj3, hj4, hj5⟩
    · obtain ⟨j, hj, hle⟩ := hok 0 (by omega)
      rw [Nat.add_zero] at hle
      exfalso
      by_cases h : idx ≤ j
      · exact absurd (hb j h hj) (not_lt.mpr hle)
      · exact absurd (hinv j (by omega)) (not_lt.mpr hle)
    · have hbelow : ∀ j', j' < j → rsum rd v j' < point rd iv off i := by
        intro j' h'
        by_cases h : idx ≤ j'
        · exact hj5 j' h h'
        · exact hinv j' (by omega)
      obtain ⟨L, hL1, hL2, hL3⟩ := ih (i + 1) j hj2 (by
        intro m hm
        obtain ⟨j', hj', hle⟩ := hok (m + 1) (by omega)
        exact ⟨j', hj', by rwa [show i + 1 + m = i + (m + 1) by omega]⟩) (by
        intro j' h'
        exact lt_of_lt_of_le (hbelow j' h') (hmono i))
      refine ⟨j :: L, ?_, by simp [hL2], ?_⟩
      · simp only [sampleLoop, List.length_map, hj3]
        rw [show rd (point rd iv off i + iv) = point rd iv off (i + 1) from rfl, hL1]
        rfl
      · intro m hm
        cases m with
        | zero =>
          refine ⟨⟨hj2, hj4⟩, ?_⟩
          rintro j' ⟨_, hle⟩
          by_contra hc
          exact absurd (hbelow j' (by simpa using hc)) (not_lt.mpr hle)
        | succ m =>
          have hm' : m < L.length := by simpa using hm
          have := hL3 m hm'
          rw [show i + 1 + m = i + (m + 1) by omega] at this
          simpa using this

section nearest
variable {rd : ℚ → ℚ} (hrd : Nearest rd)
include hrd

theorem rsum_mono {v : ℕ → ℚ} (hv : ∀ i, 0 ≤ v i) (h0 : rd (v 0) = v 0) {i j : ℕ} (hij : i ≤ j) : rsum rd v i ≤ rsum rd v j := by
  have hfix : ∀ k, rd (rsum rd v k) = rsum rd v k := by
    intro k
    cases k with
    | zero => exact h0
    | succ k => exact hrd.idem _
  induction hij with
  | refl => exact le_refl _
  | step _ ih =>
    refine le_trans ih ?_
    rename_i m _
    have : rd (rsum rd v m) ≤ rd (rsum rd v m + v (m + 1)) := hrd.mono (by linarith [hv (m + 1)])
    rw [hfix] at this
    exact this

theorem point_mono {iv off : ℚ} (hiv : 0 ≤ iv) (ho : rd off = off) (i : ℕ) : point rd iv off i ≤ point rd iv off (i + 1) := by
  have hfix : rd (point rd iv off i) = point rd iv off i := by
    cases i with
    | zero => exact ho
    | succ k => exact hrd.idem _
  have : rd (point rd iv off i) ≤ rd (point rd iv off i + iv) := hrd.mono (by linarith)
  rw [hfix] at this
  exact this

theorem point_mono' {iv off : ℚ} (hiv : 0 ≤ iv) (ho : rd off = off) {i j : ℕ} (hij : i ≤ j) :
    point rd iv off i ≤ point rd iv off j := by
  induction hij with
  | refl => exact le_refl _
  | step _ ih => exact le_trans ih (point_mono hrd hiv ho _)

/-- When the last point does not exceed the total, the loop finishes and draws the least index whose cumulative weight reaches the point. -/
theorem sample_ok {vs : List ℚ} {v : ℕ → ℚ} (hv : ∀ i, (h : i < vs.length) → vs[i] = v i) (hne : vs ≠ []) {n : ℕ} {u : ℚ}
    (hle : point rd (rd (1 / n)) (rd (rd (1 / n) * u)) (n - 1) ≤ rsum rd v (vs.length - 1)) :
    ∃ L, sample rd (vs.map some) n u = some L ∧ L.length = n ∧
      ∀ m, (h : m < L.length) →
        IsLeast {j | j < vs.length ∧ point rd (rd (1 / n)) (rd (rd (1 / n) * u)) m ≤ rsum rd v j} L[m] := by
  have hlen : 0 < vs.length := List.length_pos_of_ne_nil hne
  have hiv : (0 : ℚ) ≤ rd (1 / n) := hrd.nonneg (by positivity)
  have hm := point_mono hrd hiv (hrd.idem (rd (1 / n) * u))
  have hm' := fun {i j} => point_mono' hrd hiv (hrd.idem (rd (1 / n) * u)) (i := i) (j := j)
  have hg : (vs.map some)[0]? = some (some (v 0)) := by
    rw [List.getElem?_map, List.getElem?_eq_getElem hlen, hv _ hlen]; rfl
  obtain ⟨L, h1, h2, h3⟩ := sampleLoop_some rd vs v hv (rd (1 / n)) (rd (rd (1 / n) * u)) hm n 0 0 hlen (by
    intro m hmn
    refine ⟨vs.length - 1, by omega, ?_⟩
    rw [Nat.zero_add]
    exact le_trans (hm' (by omega)) hle) (by intro j hj; omega)
  refine ⟨L, ?_, h2, ?_⟩
  · unfold sample
    rw [hg]
    exact h1
  · intro m hml
    have := h3 m hml
    rwa [Nat.zero_add] at this

theorem sample_bad {vs : List ℚ} {v : ℕ → ℚ} (hv : ∀ i, (h : i < vs.length) → vs[i] = v i) (hne : vs ≠ []) (hnn : ∀ i, 0 ≤ v i)
    (h0 : rd (v 0) = v 0) {n : ℕ} {u : ℚ} (hn : 0 < n)
    (hlt : rsum rd v (vs.length - 1) < point rd (rd (1 / n)) (rd (rd (1 / n) * u)) (n - 1)) :
    sample rd (vs.map some) n u = none := by
  have hlen : 0 < vs.length := List.length_pos_of_ne_nil hne
  have hg : (vs.map some)[0]? = some (some (v 0)) := by
    rw [List.getElem?_map, List.getElem?_eq_getElem hlen, hv _ hlen]; rfl
  unfold sample
  rw [hg]
  refine sampleLoop_none rd vs v hv (rd (1 / n)) (rd (rd (1 / n) * u)) n 0 0 hlen ⟨n - 1, by omega, ?_⟩
  intro j hj
  rw [Nat.zero_add]
  exact lt_of_le_of_lt (rsum_mono hrd hnn h0 (by omega)) hlt

/-! ### Sums -/

theorem foldl_fadd (ws : List ℚ) (a : ℚ) :
    (ws.map some).foldl (fadd rd) (some a) = some (ws.foldl (fun x y => rd (x + y)) a) := by
  clear hrd
  induction ws generalizing a with
  | nil => rfl
  | cons w ws ih => exact ih _

theorem foldl_upper (ws : List ℚ) (hw : ∀ w ∈ ws, 0 ≤ w) (a : ℚ) (ha : 0 ≤ a) :
    0 ≤ ws.foldl (fun x y => rd (x + y)) a ∧
      ws.foldl (fun x y => rd (x + y)) a ≤ (a + ws.sum) * (1 + 1 / 2 ^ 53) ^ ws.length := by
  induction ws generalizing a with
  | nil => simpa using ha
  | cons w ws ih =>
    have hw0 : 0 ≤ w := hw w (by simp)
    have hws : ∀ x ∈ ws, 0 ≤ x := fun x hx => hw x (by simp [hx])
    have hs : 0 ≤ ws.sum := List.sum_nonneg hws
    have h1 : 0 ≤ rd (a + w) := hrd.nonneg (by linarith)
    have h2 : rd (a + w) ≤ (a + w) * (1 + 1 / 2 ^ 53) := hrd.le_of_nonneg (by linarith)
    obtain ⟨h3, h4⟩ := ih hws (rd (a + w)) h1
    refine ⟨h3, le_trans h4 ?_⟩
    rw [List.sum_cons, List.length_cons, pow_succ (1 + 1 / 2 ^ 53 : ℚ)]
    have hp : (0 : ℚ) ≤ (1 + 1 / 2 ^ 53) ^ ws.length := by positivity
    have : rd (a + w) + ws.sum ≤ (a + (w + ws.sum)) * (1 + 1 / 2 ^ 53) := by
      nlinarith
    calc (rd (a + w) + ws.sum) * (1 + 1 / 2 ^ 53) ^ ws.length
        ≤ (a + (w + ws.sum)) * (1 + 1 / 2 ^ 53) * (1 + 1 / 2 ^ 53) ^ ws.length := mul_le_mul_of_nonneg_right this hp
      _ = _ := by ring

theorem foldl_ge (ws : List ℚ) (hw : ∀ w ∈ ws, 0 ≤ w) (a : ℚ) (ha : rd a = a) :
    a ≤ ws.foldl (fun x y => rd (x + y)) a := by
  induction ws generalizing a with
  | nil => exact le_refl _
  | cons w ws ih =>
    have hw0 : 0 ≤ w := hw w (by simp)
    have h1 : rd a ≤ rd (a + w) := hrd.mono (by linarith)
    rw [ha] at h1
    exact le_trans h1 (ih (fun x hx => hw x (by simp [hx])) _ (hrd.idem _))

theorem rd_pos {x : ℚ} (hx : 0 < x) : 0 < rd x := by
  have := hrd.ge_of_nonneg hx.le
  have : 0 < x * (1 - 1 / 2 ^ 53) := by
    apply mul_pos hx; norm_num
  linarith

theorem foldl_pos (ws : List ℚ) (hw : ∀ w ∈ ws, 0 ≤ w) (a : ℚ) (ha : 0 ≤ a) (hpos : 0 < a ∨ ∃ w ∈ ws, 0 < w) :
    0 < ws.foldl (fun x y => rd (x + y)) a := by
  induction ws generalizing a with
  | nil =>
    rcases hpos with h | ⟨w, hw', _⟩
    · exact h
    · simp at hw'
  | cons w ws ih =>
    have hw0 : 0 ≤ w := hw w (by simp)
    have hws : ∀ x ∈ ws, 0 ≤ x := fun x hx => hw x (by simp [hx])
    apply ih hws _ (hrd.nonneg (by linarith))
    rcases hpos with h | ⟨x, hx, hx0⟩
    · exact Or.inl (rd_pos hrd (by linarith))
    · rcases List.mem_cons.mp hx with rfl | hx
      · exact Or.inl (rd_pos hrd (by linarith))
      · exact Or.inr ⟨x, hx, hx0⟩

/-- The normalised weights as numbers. -/
theorem normWeights_eq (ws : List ℚ) (hS : ws.foldl (fun x y => rd (x + y)) 0 ≠ 0) :
    normWeights rd (ws.map some) = (ws.map fun w => rd (w / ws.foldl (fun x y => rd (x + y)) 0)).map some := by
  have := foldl_fadd hrd ws 0
  simp only [normWeights]
  rw [this]
  simp [fdiv, hS]

theorem point_upper {iv off : ℚ} (hiv : 0 ≤ iv) (hoff : 0 ≤ off) (i : ℕ) :
    0 ≤ point rd iv off i ∧ point rd iv off i ≤ (off + i * iv) * (1 + 1 / 2 ^ 53) ^ i := by
  induction i with
  | zero => simp [point, hoff]
  | succ i ih =>
    have h0 : 0 ≤ point rd iv off i + iv := by linarith [ih.1]
    refine ⟨hrd.nonneg h0, le_trans (hrd.le_of_nonneg h0) ?_⟩
    rw [pow_succ (1 + 1 / 2 ^ 53 : ℚ), ← mul_assoc]
    apply mul_le_mul_of_nonneg_right _ (by norm_num)
    have hp : (1 : ℚ) ≤ (1 + 1 / 2 ^ 53) ^ i := one_le_pow₀ (by norm_num)
    have := ih.2
    push_cast
    nlinarith

theorem rsum_lower {v : ℕ → ℚ} (hv : ∀ i, 0 ≤ v i) (k : ℕ) :
    (∑ i ∈ Finset.range (k + 1), v i) * (1 - 1 / 2 ^ 53) ^ k ≤ rsum rd v k := by
  induction k with
  | zero => simp [rsum]
  | succ k ih =>
    have hp0 : (0 : ℚ) ≤ (1 - 1 / 2 ^ 53) ^ k := pow_nonneg (by norm_num) _
    have hs : 0 ≤ ∑ i ∈ Finset.range (k + 1), v i := Finset.sum_nonneg fun i _ => hv i
    have hr : 0 ≤ rsum rd v k := le_trans (mul_nonneg hs hp0) ih
    have h0 : 0 ≤ rsum rd v k + v (k + 1) := by linarith [hv (k + 1)]
    refine le_trans ?_ (hrd.ge_of_nonneg h0)
    rw [pow_succ (1 - 1 / 2 ^ 53 : ℚ), ← mul_assoc]
    apply mul_le_mul_of_nonneg_right _ (by norm_num)
    rw [Finset.sum_range_succ, add_mul]
    have hp1 : (1 - 1 / 2 ^ 53 : ℚ) ^ k ≤ 1 := pow_le_one₀ (by norm_num) (by norm_num)
    have := hv (k + 1)
    nlinarith

end nearest

end Dbl
end RFS
