import Verif.Lemmas.DblSample
import Mathlib.Data.List.GetD

/-!
Bound on the rounded sample points, particles with weights that are NaN, conversions of time, angles.
-/

namespace RFS
namespace Dbl

/-! ### The total of the normalised weights -/

section nearest
variable {rd : ℚ → ℚ} (hrd : Nearest rd)
include hrd

theorem norm_total {ws : List ℚ} (hw : ∀ w ∈ ws, 0 ≤ w) (hpos : ∃ w ∈ ws, 0 < w) :
    (1 - 1 / 2 ^ 53) / (1 + 1 / 2 ^ 53) ^ ws.length ≤
      (ws.map fun w => rd (w / ws.foldl (fun x y => rd (x + y)) 0)).sum := by
  obtain ⟨S, hS⟩ : ∃ S, S = ws.foldl (fun x y => rd (x + y)) 0 := ⟨_, rfl⟩
  rw [← hS]
  have hSpos : 0 < S := by rw [hS]; exact foldl_pos hrd ws hw 0 (le_refl _) (Or.inr hpos)
  have hSup : S ≤ ws.sum * (1 + 1 / 2 ^ 53) ^ ws.length := by
    have := (foldl_upper hrd ws hw 0 (le_refl _)).2
    rw [zero_add] at this
    rw [hS]; exact this
  have h1 : ∀ l : List ℚ, (∀ w ∈ l, 0 ≤ w) → l.sum / S * (1 - 1 / 2 ^ 53) ≤ (l.map fun w => rd (w / S)).sum := by
    intro l
    induction l with
    | nil => intro _; simp
    | cons w l ih =>
      intro hl
      have := ih (fun x hx => hl x (by simp [hx]))
      have h2 := hrd.ge_of_nonneg (x := w / S) (div_nonneg (hl w (by simp)) hSpos.le)
      rw [List.map_cons, List.sum_cons, List.sum_cons, add_div, add_mul]
      linarith
  refine le_trans ?_ (h1 ws hw)
  have hp : (0 : ℚ) < (1 + 1 / 2 ^ 53) ^ ws.length := by positivity
  have h3 : 1 / (1 + 1 / 2 ^ 53) ^ ws.length ≤ ws.sum / S := by
    rw [div_le_div_iff₀ hp hSpos]
    linarith
  have h4 : (0 : ℚ) ≤ 1 - 1 / 2 ^ 53 := by norm_num
  calc (1 - 1 / 2 ^ 53 : ℚ) / (1 + 1 / 2 ^ 53) ^ ws.length
      = 1 / (1 + 1 / 2 ^ 53) ^ ws.length * (1 - 1 / 2 ^ 53) := by ring
    _ ≤ _ := mul_le_mul_of_nonneg_right h3 h4

theorem sum_range_getD (l : List ℚ) : ∑ i ∈ Finset.range l.length, l.getD i 0 = l.sum := by
  clear hrd
  induction l with
  | nil => simp
  | cons a l ih =>
    rw [List.length_cons, Finset.sum_range_succ', List.sum_cons]
    simp only [List.getD_cons_succ, List.getD_cons_zero]
    rw [ih]; ring

/-- If `u` stays away from 1 by the stated amount, the last point does not exceed the total. -/
theorem last_point_le {ws : List ℚ} (hw : ∀ w ∈ ws, 0 ≤ w) (hpos : ∃ w ∈ ws, 0 < w) {n : ℕ} (hn : 0 < n) {u : ℚ} (hu0 : 0 ≤ u)
    (hu : u ≤ 1 - n * (2 * ws.length + n + 1) / 2 ^ 53) :
    point rd (rd (1 / n)) (rd (rd (1 / n) * u)) (n - 1) ≤
      rsum rd (fun i => (ws.map fun w => rd (w / ws.foldl (fun x y => rd (x + y)) 0)).getD i 0) (ws.length - 1) := by
  obtain ⟨vs, hvs⟩ : ∃ vs, vs = ws.map fun w => rd (w / ws.foldl (fun x y => rd (x + y)) 0) := ⟨_, rfl⟩
  rw [← hvs]
  have hlen : vs.length = ws.length := by rw [hvs]; simp
  have hN : 0 < ws.length := by
    obtain ⟨w, hw', _⟩ := hpos
    exact List.length_pos_of_mem hw'
  have hSpos : 0 < ws.foldl (fun x y => rd (x + y)) 0 := foldl_pos hrd ws hw 0 (le_refl _) (Or.inr hpos)
  have hvnn : ∀ i, 0 ≤ vs.getD i 0 := by
    intro i
    by_cases hi : i < vs.length
    · rw [List.getD_eq_getElem _ _ hi]
      have hall : ∀ x ∈ vs, ∃ w ∈ ws, rd (w / ws.foldl (fun x y => rd (x + y)) 0) = x := by
        intro x hx
        rw [hvs] at hx
        exact List.mem_map.mp hx
      obtain ⟨w, hw', he⟩ := hall _ (List.getElem_mem hi)
      rw [← he]
      exact hrd.nonneg (div_nonneg (hw w hw') hSpos.le)
    · rw [List.getD_eq_default _ _ (by omega)]
  have hlow := rsum_lower hrd hvnn (ws.length - 1)
  rw [Nat.sub_add_cancel hN, ← hlen, sum_range_getD hrd, hlen] at hlow
  have htot := norm_total hrd hw hpos
  rw [← hvs] at htot
  -- upper bound of the point
  have hnq : (0 : ℚ) < n := by exact_mod_cast hn
  have hiv0 : (0 : ℚ) ≤ rd (1 / n) := hrd.nonneg (by positivity)
  have hiv : rd (1 / n) ≤ 1 / n * (1 + 1 / 2 ^ 53) := hrd.le_of_nonneg (by positivity)
  have hoff0 : 0 ≤ rd (rd (1 / n) * u) := hrd.nonneg (mul_nonneg hiv0 hu0)
  have hoff : rd (rd (1 / n) * u) ≤ rd (1 / n) * u * (1 + 1 / 2 ^ 53) := hrd.le_of_nonneg (mul_nonneg hiv0 hu0)
  have hpt := (point_upper hrd hiv0 hoff0 (n - 1)).2
  obtain ⟨A, hA⟩ : ∃ A : ℚ, A = 1 + 1 / 2 ^ 53 := ⟨_, rfl⟩
  obtain ⟨B, hB⟩ : ∃ B : ℚ, B = 1 - 1 / 2 ^ 53 := ⟨_, rfl⟩
  rw [← hA] at hiv hoff hpt htot
  rw [← hB] at hlow htot
  have hA1 : 1 ≤ A := by rw [hA]; norm_num
  have hB0 : 0 < B := by rw [hB]; norm_num
  have hAB : A * B ≤ 1 := by rw [hA, hB]; norm_num
  obtain ⟨iv, hivd⟩ : ∃ iv, iv = rd (1 / n) := ⟨_, rfl⟩
  rw [← hivd] at hiv0 hiv hoff0 hoff hpt ⊢
  obtain ⟨off, hoffd⟩ : ∃ off, off = rd (iv * u) := ⟨_, rfl⟩
  rw [← hoffd] at hoff0 hoff hpt ⊢
  refine le_trans hpt (le_trans ?_ hlow)
  have hcast : ((n - 1 : ℕ) : ℚ) = (n : ℚ) - 1 := by
    have : 1 ≤ n := hn
    push_cast [this]; ring
  rw [hcast]
  have hn1 : (0 : ℚ) ≤ (n : ℚ) - 1 := by
    have : (1 : ℚ) ≤ n := by exact_mod_cast hn
    linarith
  -- off + (n-1) iv ≤ (u + n - 1)/n * A^2
  have s1 : off + ((n : ℚ) - 1) * iv ≤ (u + n - 1) / n * A ^ 2 := by
    have a1 : off ≤ 1 / n * A * u * A := by
      refine le_trans hoff ?_
      have : iv * u ≤ 1 / n * A * u := mul_le_mul_of_nonneg_right hiv hu0
      exact mul_le_mul_of_nonneg_right this (by linarith)
    have a2 : ((n : ℚ) - 1) * iv ≤ ((n : ℚ) - 1) * (1 / n * A * A) := by
      apply mul_le_mul_of_nonneg_left _ hn1
      refine le_trans hiv ?_
      have : (0 : ℚ) ≤ 1 / n * A := by positivity
      nlinarith
    calc off + ((n : ℚ) - 1) * iv ≤ 1 / n * A * u * A + ((n : ℚ) - 1) * (1 / n * A * A) := add_le_add a1 a2
      _ = (u + n - 1) / n * A ^ 2 := by field_simp; ring
  have hpA : ∀ k : ℕ, 0 < A ^ k := fun k => pow_pos (by linarith) k
  have hpB : ∀ k : ℕ, 0 < B ^ k := fun k => pow_pos hB0 k
  have hABk : ∀ k : ℕ, A ^ k * B ^ k ≤ 1 := fun k => by
    rw [← mul_pow]; exact pow_le_one₀ (mul_nonneg (by linarith) hB0.le) hAB
  -- Bernoulli
  have hbern : 1 - ((2 * ws.length + n + 1 : ℕ) : ℚ) / 2 ^ 53 ≤ B ^ (2 * ws.length + n + 1) := by
    have := one_add_mul_le_pow (a := -(1 / 2 ^ 53 : ℚ)) (by norm_num) (2 * ws.length + n + 1)
    rw [hB]
    calc 1 - ((2 * ws.length + n + 1 : ℕ) : ℚ) / 2 ^ 53 = 1 + ((2 * ws.length + n + 1 : ℕ) : ℚ) * -(1 / 2 ^ 53) := by ring
      _ ≤ _ := this
      _ = _ := by ring
  have hun : (u + n - 1) / n ≤ 1 - ((2 * ws.length + n + 1 : ℕ) : ℚ) / 2 ^ 53 := by
    rw [div_le_iff₀ hnq]
    push_cast
    have e : (1 - (2 * (ws.length : ℚ) + n + 1) / 2 ^ 53) * n = n - n * (2 * ws.length + n + 1) / 2 ^ 53 := by ring
    rw [e]
    linarith
  have hkey : (u + n - 1) / n ≤ B ^ (2 * ws.length + n + 1) := le_trans hun hbern
  calc (off + ((n : ℚ) - 1) * iv) * A ^ (n - 1)
      ≤ (u + n - 1) / n * A ^ 2 * A ^ (n - 1) := mul_le_mul_of_nonneg_right s1 (hpA _).le
    _ = (u + n - 1) / n * A ^ (n + 1) := by rw [mul_assoc, ← pow_add]; congr 2; omega
    _ ≤ B ^ (2 * ws.length + n + 1) * A ^ (n + 1) := mul_le_mul_of_nonneg_right hkey (hpA _).le
    _ = B ^ ws.length * (B ^ ws.length * (A ^ (n + 1) * B ^ (n + 1))) := by
        rw [show 2 * ws.length + n + 1 = ws.length + (ws.length + (n + 1)) by ring, pow_add, pow_add]; ring
    _ ≤ B ^ ws.length * (B ^ ws.length * 1) := by
        apply mul_le_mul_of_nonneg_left _ (hpB _).le
        exact mul_le_mul_of_nonneg_left (hABk _) (hpB _).le
    _ ≤ B ^ ws.length * (1 / A ^ ws.length) := by
        apply mul_le_mul_of_nonneg_left _ (hpB _).le
        rw [mul_one, le_div_iff₀ (hpA _), mul_comm]
        exact hABk _
    _ = B / A ^ ws.length * B ^ (ws.length - 1) := by
        have : B ^ ws.length = B * B ^ (ws.length - 1) := by
          rw [← pow_succ', Nat.sub_add_cancel hN]
        rw [this]; ring
    _ ≤ vs.sum * B ^ (ws.length - 1) := mul_le_mul_of_nonneg_right htot (hpB _).le

/-! ### Weights that are all one -/

theorem foldl_ones (N : ℕ) : ∀ a : ℕ, a + N ≤ 2 ^ 53 →
    (List.replicate N (1 : ℚ)).foldl (fun x y => rd (x + y)) (a : ℚ) = ((a + N : ℕ) : ℚ) := by
  induction N with
  | zero => intro a _; simp
  | succ N ih =>
    intro a ha
    rw [List.replicate_succ, List.foldl_cons]
    have h1 : (a : ℚ) + 1 = ((a + 1 : ℕ) : ℚ) := by push_cast; ring
    rw [h1, hrd.nat (by omega), ih (a + 1) (by omega)]
    congr 1; omega

theorem point_le_rsum {iv off : ℚ} {v : ℕ → ℚ} {N : ℕ} (h : ∀ i, i < N → v i = iv) (ho : off ≤ iv) :
    ∀ i, i < N → point rd iv off i ≤ rsum rd v i := by
  intro i
  induction i with
  | zero => intro h0; rw [show rsum rd v 0 = v 0 from rfl, h 0 h0]; exact ho
  | succ i ih =>
    intro hi
    rw [show rsum rd v (i + 1) = rd (rsum rd v i + v (i + 1)) from rfl, h _ hi]
    exact hrd.mono (by linarith [ih (by omega)])

end nearest

/-! ### All weights zero -/

section nan
variable {S : Type*}

theorem foldl_zero (rd : ℚ → ℚ) (h0 : rd 0 = 0) (ws : List ℚ) (hw : ∀ w ∈ ws, w = 0) :
    ws.foldl (fun x y => rd (x + y)) 0 = 0 := by
  induction ws with
  | nil => rfl
  | cons w ws ih =>
    rw [List.foldl_cons, hw w (by simp), add_zero, h0]
    exact ih fun x hx => hw x (by simp [hx])

theorem normWeights_nan (rd : ℚ → ℚ) (h0 : rd 0 = 0) (ws : List ℚ) (hw : ∀ w ∈ ws, w = 0) :
    normWeights rd (ws.map some) = List.replicate ws.length none := by
  have h1 : (ws.map some).foldl (fadd rd) (some 0) = some 0 := by
    have : ∀ (l : List ℚ) (a : ℚ), (l.map some).foldl (fadd rd) (some a) = some (l.foldl (fun x y => rd (x + y)) a) := by
      intro l
      induction l with
      | nil => intro a; rfl
      | cons w l ih => intro a; exact ih _
    rw [this, foldl_zero rd h0 ws hw]
  simp only [normWeights, h1, List.map_map]
  rw [List.eq_replicate_iff]
  refine ⟨by simp, ?_⟩
  intro b hb
  rw [List.mem_map] at hb
  obtain ⟨w, _, rfl⟩ := hb
  simp [fdiv]

theorem foldl_none (rd : ℚ → ℚ) (n : ℕ) :
    (List.replicate n (none : Option ℚ)).foldl (fun a w => fadd rd a (fmul rd w w)) none = none := by
  induction n with
  | zero => rfl
  | succ n ih => rw [List.replicate_succ, List.foldl_cons]; exact ih

theorem enough_nan (rd : ℚ → ℚ) (n : ℕ) (t tp : ℚ) : enough rd (List.replicate (n + 1) none) t tp = false := by
  have : (List.replicate (n + 1) (none : Option ℚ)).foldl (fun a w => fadd rd a (fmul rd w w)) (some 0) = none := by
    rw [List.replicate_succ, List.foldl_cons]
    exact foldl_none rd n
  simp only [enough, this]
  simp [fdiv, flt]

theorem sampleLoop_nan (rd : ℚ → ℚ) (vs : List (Option ℚ)) (iv : ℚ) : ∀ k sp,
    sampleLoop rd vs iv k sp 0 none = some (List.replicate k 0) := by
  intro k
  induction k with
  | zero => intro sp; rfl
  | succ k ih =>
    intro sp
    have ha : advance rd vs (some sp) (vs.length + 1) 0 none = some (0, none) := by simp [advance, flt]
    simp only [sampleLoop, ha, ih]
    rfl

theorem sample_nan (rd : ℚ → ℚ) (N n : ℕ) (u : ℚ) :
    sample rd (List.replicate (N + 1) none) n u = some (List.replicate n 0) := by
  unfold sample
  rw [show (List.replicate (N + 1) (none : Option ℚ))[0]? = some none by simp]
  exact sampleLoop_nan rd _ _ n _

theorem nextFree_at (N : ℕ) (flag : ℕ → Bool) (f fuel : ℕ) (hf : f < N) (h : flag f = false) :
    PF.nextFree flag N (fuel + 1) f = some f := by
  simp [PF.nextFree, hf, h]

theorem set_rep (q r : PF.Part S ℚ) (f : ℕ) (l : List (PF.Part S ℚ)) :
    (List.replicate f q ++ r :: l).set f q = List.replicate (f + 1) q ++ l := by
  induction f with
  | zero => rfl
  | succ f ih =>
    rw [List.replicate_succ, List.cons_append, List.set_cons_succ, ih, List.replicate_succ (n := f + 1)]
    rfl

theorem copyLoop_zero (flag : ℕ → Bool) (hflag : ∀ i, i ≠ 0 → flag i = false) (h0 : flag 0 = true) (n : ℕ)
    (q : PF.Part S ℚ) (hq : q.parent = q.id) : ∀ k f nx (l : List (PF.Part S ℚ)), k ≤ l.length → (nx = f + 1 ∨ (nx = 0 ∧ f = 0)) →
      PF.copyLoop flag n (List.replicate k 0) (some 0) (List.replicate (f + 1) q ++ l, nx) =
        some (List.replicate (f + 1 + k) q ++ l.drop k) := by
  intro k
  induction k with
  | zero => intro f nx l _ _; simp [PF.copyLoop]
  | succ k ih =>
    intro f nx l hl hnx
    cases l with
    | nil => simp at hl
    | cons r l =>
      have hq' : ({ q with parent := q.id } : PF.Part S ℚ) = q := by cases q; simp_all
      have hg : (List.replicate (f + 1) q ++ r :: l)[0]? = some q := by
        rw [List.replicate_succ]; rfl
      have hlen : (List.replicate (f + 1) q ++ r :: l).length = f + 2 + l.length := by simp; omega
      have hnf : PF.nextFree flag (List.replicate (f + 1) q ++ r :: l).length ((List.replicate (f + 1) q ++ r :: l).length + 1) nx
          = some (f + 1) := by
        rw [hlen]
        rcases hnx with rfl | ⟨rfl, rfl⟩
        · exact nextFree_at _ _ _ _ (by omega) (hflag _ (by omega))
        · rw [show PF.nextFree flag (0 + 2 + l.length) (0 + 2 + l.length + 1) 0 =
            PF.nextFree flag (0 + 2 + l.length) (0 + 2 + l.length) 1 by
              simp [PF.nextFree, h0]]
          rw [show 0 + 2 + l.length = l.length + 1 + 1 by omega]
          exact nextFree_at _ _ _ _ (by omega) (hflag _ (by omega))
      rw [List.replicate_succ]
      have hst : PF.copyLoop flag n (0 :: List.replicate k 0) (some 0) (List.replicate (f + 1) q ++ r :: l, nx) =
          PF.copyLoop flag n (List.replicate k 0) (some 0) (List.replicate (f + 1 + 1) q ++ l, f + 2) := by
        rw [PF.copyLoop]
        simp only [hg, hnf, hq', set_rep]
        simp
      rw [hst, ih (f + 1) (f + 2) l (by simpa using hl) (Or.inl rfl)]
      rw [show f + 1 + 1 + k = f + 1 + (k + 1) by omega]
      rfl

end nan

/-! ### Time -/

theorem truncQ_floor {q : ℚ} (hq : 0 ≤ q) : TimeStamp.truncQ q = ⌊q⌋ := by
  unfold TimeStamp.truncQ
  rw [Int.tdiv_eq_ediv_of_nonneg (Rat.num_nonneg.mpr hq)]
  exact (Rat.floor_def (a := q)).symm

theorem wrap32_id {x : ℤ} (h1 : -2147483648 ≤ x) (h2 : x ≤ 2147483647) : TimeStamp.wrap32 x = x := by
  unfold TimeStamp.wrap32; omega

/-- `setTime` of a nonnegative double that is within 0.49 ns of `m` ns. -/
theorem setTime_near {rd : ℚ → ℚ} (hrd : Nearest rd) {d : ℚ} {m : ℤ} (hd : 0 ≤ d) (hd2 : d ≤ 2 ^ 30)
    (hm : |d * 1000000000 - m| ≤ 49 / 100) :
    ∃ t, setTime rd d = some t ∧ 0 ≤ t.nsec ∧ t.nsec < 1000000000 ∧
      (t.sec * 1000000000 + t.nsec = m ∨ t.sec * 1000000000 + t.nsec = m - 1) := by
  obtain ⟨s, hs⟩ : ∃ s, s = ⌊d⌋ := ⟨_, rfl⟩
  have hs0 : 0 ≤ s := by rw [hs]; exact Int.floor_nonneg.mpr hd
  have hs1 : (s : ℚ) ≤ d := by rw [hs]; exact Int.floor_le d
  have hs2 : d < s + 1 := by rw [hs]; exact Int.lt_floor_add_one d
  have hs3 : s ≤ 2 ^ 30 := by
    have : (s : ℚ) ≤ 2 ^ 30 := le_trans hs1 hd2
    exact_mod_cast this
  obtain ⟨x, hx⟩ : ∃ x, x = (d - s) * 1000000000 := ⟨_, rfl⟩
  have hx0 : 0 ≤ x := by rw [hx]; exact mul_nonneg (by linarith) (by norm_num)
  have hx1 : x ≤ 1000000000 := by rw [hx]; nlinarith
  have hy0 : 0 ≤ rd x := hrd.nonneg hx0
  have hy1 : rd x ≤ 1000000000 := by
    have h := hrd.mono hx1
    have h2 := hrd.nat (k := 1000000000) (by norm_num)
    push_cast at h2
    rwa [h2] at h
  have hyx : |x - rd x| ≤ 1 / 1000 := by
    refine le_trans (hrd.rel x) ?_
    rw [abs_of_nonneg hx0, div_le_iff₀ (by norm_num)]
    have : (1000000000 : ℚ) ≤ 1 / 1000 * 2 ^ 53 := by norm_num
    linarith
  obtain ⟨k, hk⟩ : ∃ k, k = ⌊rd x⌋ := ⟨_, rfl⟩
  have hk0 : 0 ≤ k := by rw [hk]; exact Int.floor_nonneg.mpr hy0
  have hk1 : (k : ℚ) ≤ rd x := by rw [hk]; exact Int.floor_le _
  have hk2 : rd x < k + 1 := by rw [hk]; exact Int.lt_floor_add_one _
  have hk3 : k ≤ 1000000000 := by
    have : (k : ℚ) ≤ 1000000000 := le_trans hk1 hy1
    exact_mod_cast this
  have hmm : s * 1000000000 + k = m ∨ s * 1000000000 + k = m - 1 := by
    rw [abs_le] at hm hyx
    have e1 : (m : ℚ) < s * 1000000000 + k + 2 := by linarith [hm.1, hyx.1, hyx.2]
    have e2 : ((s * 1000000000 + k : ℤ) : ℚ) < m + 1 := by push_cast; linarith [hm.2, hyx.1]
    have e1' : m < s * 1000000000 + k + 2 := by exact_mod_cast e1
    have e2' : s * 1000000000 + k < m + 1 := by exact_mod_cast e2
    omega
  have hset : setTime rd d = TimeStamp.normalize ⟨s, k⟩ := by
    simp only [setTime, truncQ_floor hd, ← hs, ← hx, truncQ_floor hy0, ← hk]
    have c1 : TimeStamp.chk32 s = some s := by
      unfold TimeStamp.chk32; rw [if_pos]; unfold TimeStamp.InI32; omega
    have c2 : TimeStamp.chk32 k = some k := by
      unfold TimeStamp.chk32; rw [if_pos]; unfold TimeStamp.InI32; omega
    rw [c1, c2]; rfl
  rw [hset]
  have htm : Int.tmod k 1000000000 = k % 1000000000 := Int.tmod_eq_emod_of_nonneg hk0
  have htd : Int.tdiv k 1000000000 = k / 1000000000 := Int.tdiv_eq_ediv_of_nonneg hk0
  refine ⟨⟨s + k / 1000000000, k % 1000000000⟩, ?_, ?_, ?_, ?_⟩
  · simp only [TimeStamp.normalize, htm, htd]
    rw [if_neg (by omega), wrap32_id (by omega) (by omega)]
  · show 0 ≤ k % 1000000000
    omega
  · show k % 1000000000 < 1000000000
    omega
  · show (s + k / 1000000000) * 1000000000 + k % 1000000000 = m ∨ _ = m - 1
    have : (s + k / 1000000000) * 1000000000 + k % 1000000000 = s * 1000000000 + k := by omega
    rw [this]; exact hmm

/-! ### Angles -/

theorem wrapDown_ok {rd : ℚ → ℚ} (hrd : Nearest rd) {p : ℚ} (hp3 : 3 ≤ p) (hp4 : p ≤ 4) (hpr : Rep p) :
    ∀ (fuel : ℕ) (b : ℚ), -p ≤ b → b ≤ 2 ^ 50 → b + 5 ≤ 5 * fuel → ∃ r, wrapDown rd p fuel b = some r ∧ -p ≤ r ∧ r ≤ p := by
  have hnp : Rep (-p) := by
    obtain ⟨k, e, hk, rfl⟩ := hpr
    exact ⟨-k, e, by rwa [abs_neg], by push_cast; ring⟩
  intro fuel
  induction fuel with
  | zero => intro b h1 _ h3; exfalso; norm_num at h3; linarith
  | succ fuel ih =>
    intro b hb1 hb2 hb3
    by_cases hgt : p < b
    · have e1 : -p ≤ rd (b - 2 * p) := by
        have := hrd.mono (show -p ≤ b - 2 * p by linarith)
        rwa [hrd.fix hnp] at this
      have e2 : rd (b - 2 * p) ≤ b - 5 := by
        have h := hrd.rel (b - 2 * p)
        have habs : |b - 2 * p| ≤ 2 ^ 50 := by
          rw [abs_le]; constructor <;> [(norm_num; linarith); linarith]
        have : |b - 2 * p| / 2 ^ 53 ≤ 1 := by
          rw [div_le_iff₀ (by norm_num)]; linarith [show (2 : ℚ) ^ 50 ≤ 1 * 2 ^ 53 by norm_num]
        rw [abs_le] at h
        linarith [h.1]
      push_cast at hb3
      obtain ⟨r, h1, h2, h3⟩ := ih (rd (b - 2 * p)) e1 (by linarith) (by linarith)
      exact ⟨r, by simp only [wrapDown, hgt, if_true]; exact h1, h2, h3⟩
    · exact ⟨b, by simp [wrapDown, hgt], hb1, not_lt.mp hgt⟩

theorem Nearest.neg {rd : ℚ → ℚ} (hrd : Nearest rd) : Nearest fun x => -rd (-x) := by
  have hn : ∀ {x}, Rep x → Rep (-x) := by
    rintro _ ⟨k, e, hk, rfl⟩
    exact ⟨-k, e, by rwa [abs_neg], by push_cast; ring⟩
  intro x
  refine ⟨hn (hrd (-x)).1, fun y hy => ?_⟩
  have := (hrd (-x)).2 (-y) (hn hy)
  rw [show x - -rd (-x) = -(-x - rd (-x)) by ring, show x - y = -(-x - -y) by ring, abs_neg, abs_neg]
  exact this

theorem wrapUp_eq (rd : ℚ → ℚ) (p : ℚ) (fuel : ℕ) (b : ℚ) :
    wrapUp rd p fuel b = (wrapDown (fun x => -rd (-x)) p fuel (-b)).map fun r => -r := by
  induction fuel generalizing b with
  | zero => rfl
  | succ fuel ih =>
    by_cases h : b < -p
    · have h' : p < -b := by linarith
      simp only [wrapUp, wrapDown, h, h', if_true]
      rw [ih]
      congr 2
      rw [show -(-b - 2 * p) = b + 2 * p by ring]
    · have h' : ¬ p < -b := by linarith
      simp [wrapUp, wrapDown, h, h']

theorem wrap_ok {rd : ℚ → ℚ} (hrd : Nearest rd) {p : ℚ} (hp3 : 3 ≤ p) (hp4 : p ≤ 4) (hpr : Rep p) {b : ℚ} (hb : |b| ≤ 2 ^ 50)
    {fuel : ℕ} (hf : |b| + 7 ≤ 5 * fuel) : ∃ r, wrap rd p fuel b = some r ∧ -p ≤ r ∧ r ≤ p := by
  have hfuel : ∃ f', fuel = f' + 1 := by
    rcases fuel with _ | f
    · exfalso
      have := abs_nonneg b
      norm_num at hf
      linarith
    · exact ⟨f, rfl⟩
  have hb' := abs_le.mp hb
  have hl := neg_abs_le b
  have hr := le_abs_self b
  unfold wrap
  by_cases h : -p ≤ b
  · obtain ⟨r, h1, h2, h3⟩ := wrapDown_ok hrd hp3 hp4 hpr fuel b h hb'.2 (by linarith)
    refine ⟨r, ?_, h2, h3⟩
    rw [h1]
    obtain ⟨f', rfl⟩ := hfuel
    have : ¬ r < -p := not_lt.mpr h2
    simp [wrapUp, this]
  · have h' : ¬ p < b := by linarith
    have hd : wrapDown rd p fuel b = some b := by
      obtain ⟨f', rfl⟩ := hfuel
      simp [wrapDown, h']
    obtain ⟨r, h1, h2, h3⟩ := wrapDown_ok hrd.neg hp3 hp4 hpr fuel (-b) (by linarith) (by linarith [hb'.1]) (by linarith)
    refine ⟨-r, ?_, by linarith, by linarith⟩
    rw [hd]
    show wrapUp rd p fuel b = _
    rw [wrapUp_eq, h1]
    rfl

end Dbl
end RFS
