import Verif.Lemmas.DblMore
import Verif.Lemmas.ParticleFilter

set_option linter.unusedSectionVars false

/-!
Properties of the places where the rounding of doubles decides: C228 – C232.

`Nearest rd` (Lemmas/DblRound.lean) says that `rd` rounds to a nearest number with 53 significant bits; `Dbl.rnd` is the IEEE 754
rounding (ties to even), proved to satisfy `Nearest` in `rnd_nearest`.
-/

namespace RFS
namespace DblProps
open Dbl

variable {S : Type*}

/-- The binary64 rounding of the model is a rounding to nearest: the hypothesis of the theorems below can be met. -/
theorem rnd_nearest : Nearest rnd := nearest_rnd

/-- `rnd` breaks ties to the even significand: `2^53 + 1` goes down and `2^53 + 3` goes up. -/
example : rnd (2 ^ 53 + 1) = 2 ^ 53 ∧ rnd (2 ^ 53 + 3) = 2 ^ 53 + 4 ∧ rnd (1 / 10) = 3602879701896397 / 36028797018963968 := by
  decide +kernel

/-! ### C228: sampling never runs past the last particle -/

/-- Normalised weight number `i` of the weights `ws`, in doubles. -/
def nw (rd : ℚ → ℚ) (ws : List ℚ) (i : ℕ) : ℚ := rd (ws.getD i 0 / ws.foldl (fun a w => rd (a + w)) 0)

/-- Sample point number `i` of `n` in doubles, `u` is the random number. -/
def sp (rd : ℚ → ℚ) (n : ℕ) (u : ℚ) (i : ℕ) : ℚ := point rd (rd (1 / n)) (rd (rd (1 / n) * u)) i

theorem map_nw (rd : ℚ → ℚ) (ws : List ℚ) (i : ℕ)
    (h : i < (ws.map fun w => rd (w / ws.foldl (fun a w => rd (a + w)) 0)).length) :
    (ws.map fun w => rd (w / ws.foldl (fun a w => rd (a + w)) 0))[i] = nw rd ws i := by
  have hi : i < ws.length := by simpa using h
  rw [List.getElem_map, nw, List.getD_eq_getElem _ _ hi]

theorem nw_nonneg {rd : ℚ → ℚ} (hrd : Nearest rd) {ws : List ℚ} (hw : ∀ w ∈ ws, 0 ≤ w) (i : ℕ) : 0 ≤ nw rd ws i := by
  unfold nw
  apply hrd.nonneg
  apply div_nonneg
  · by_cases hi : i < ws.length
    · rw [List.getD_eq_getElem _ _ hi]; exact hw _ (List.getElem_mem hi)
    · rw [List.getD_eq_default _ _ (by omega)]
  · exact (foldl_upper hrd ws hw 0 (le_refl _)).1

/-- The exact condition, for every rounding to nearest: with nonnegative weights, not all zero, the sampling loop stays inside the
vector of particles if and only if the last sample point (in doubles) is at most the sum of the normalised weights (in doubles). When it
does, the `m`-th particle drawn is the first one whose cumulative weight reaches the `m`-th point. -/
theorem C228_exact {rd : ℚ → ℚ} (hrd : Nearest rd) {ws : List ℚ} (hw : ∀ w ∈ ws, 0 ≤ w) (hpos : ∃ w ∈ ws, 0 < w) {n : ℕ} (hn : 0 < n)
    (u : ℚ) :
    ((∃ L, sample rd (normWeights rd (ws.map some)) n u = some L) ↔ sp rd n u (n - 1) ≤ rsum rd (nw rd ws) (ws.length - 1)) ∧
    ∀ L, sample rd (normWeights rd (ws.map some)) n u = some L → L.length = n ∧
      ∀ m, (h : m < L.length) → IsLeast {j | j < ws.length ∧ sp rd n u m ≤ rsum rd (nw rd ws) j} L[m] := by
  have hS : ws.foldl (fun x y => rd (x + y)) 0 ≠ 0 := (foldl_pos hrd ws hw 0 (le_refl _) (Or.inr hpos)).ne'
  rw [normWeights_eq hrd ws hS]
  obtain ⟨vs, hvs⟩ : ∃ vs, vs = ws.map fun w => rd (w / ws.foldl (fun x y => rd (x + y)) 0) := ⟨_, rfl⟩
  rw [← hvs]
  have hv : ∀ i, (h : i < vs.length) → vs[i] = nw rd ws i := by subst hvs; exact map_nw rd ws
  have hlen : vs.length = ws.length := by rw [hvs]; simp
  have hne : vs ≠ [] := by
    obtain ⟨w, hw', _⟩ := hpos
    have := List.length_pos_of_mem hw'
    intro h
    rw [h] at hlen
    simp at hlen
    omega
  have hnn := nw_nonneg hrd hw
  have h0 : rd (nw rd ws 0) = nw rd ws 0 := hrd.idem _
  have hbad : ¬ sp rd n u (n - 1) ≤ rsum rd (nw rd ws) (ws.length - 1) → sample rd (vs.map some) n u = none := by
    intro h
    rw [← hlen] at h
    exact sample_bad hrd hv hne hnn h0 hn (not_le.mp h)
  have hok : sp rd n u (n - 1) ≤ rsum rd (nw rd ws) (ws.length - 1) → ∃ L, sample rd (vs.map some) n u = some L ∧ L.length = n ∧
      ∀ m, (h : m < L.length) → IsLeast {j | j < ws.length ∧ sp rd n u m ≤ rsum rd (nw rd ws) j} L[m] := by
    intro h
    rw [← hlen] at h
    have := sample_ok hrd hv hne h
    rw [hlen] at this
    exact this
  refine ⟨⟨?_, ?_⟩, ?_⟩
  · rintro ⟨L, hL⟩
    by_contra hc
    rw [hbad hc] at hL
    exact absurd hL (by simp)
  · intro h
    obtain ⟨L, hL, _⟩ := hok h
    exact ⟨L, hL⟩
  · intro L hL
    by_cases h : sp rd n u (n - 1) ≤ rsum rd (nw rd ws) (ws.length - 1)
    · obtain ⟨L', hL', h1, h2⟩ := hok h
      rw [hL] at hL'
      obtain rfl : L = L' := by simpa using hL'
      exact ⟨h1, h2⟩
    · rw [hbad h] at hL
      exact absurd hL (by simp)

/-- Both cases of the condition occur: two particles, one sample point, weights 1 and 3. -/
example : sample rnd (normWeights rnd ([1, 3].map some)) 2 (1 / 2) = some [0, 1] ∧
    sample rnd (normWeights rnd ((1 :: List.replicate 19 0).map some)) 20 ((2 ^ 48 - 1) / 2 ^ 48) = none := by decide +kernel

/-- The effective number of particles in doubles: one over the sum of the squared normalised weights. -/
def effective (rd : ℚ → ℚ) (ws : List ℚ) : ℚ :=
  rd (1 / (List.range ws.length).foldl (fun a i => rd (a + rd (nw rd ws i * nw rd ws i))) 0)

/-- `resample` as a whole in doubles, for non-negative weights that are not all zero. If it is not forced and the effective number is above
both thresholds, nothing but the weights changes. Otherwise it reads past the vector exactly when the last point exceeds the sum of the
weights; and if not, `n` particles remain, all of weight one, each of them a copy (with the id as parent) of a particle drawn, every draw
taken once. -/
theorem C228_resample {rd : ℚ → ℚ} (hrd : Nearest rd) (P : List (PF.Part S ℚ)) (hw : ∀ p ∈ P, 0 ≤ p.w) (hpos : ∃ p ∈ P, 0 < p.w) (n0 : ℕ)
    (force : Bool) (t tp u : ℚ) (n : ℕ) (hn : n = if n0 = 0 ∨ P.length < n0 then P.length else n0) :
    (force = false ∧ t < effective rd (P.map PF.Part.w) ∧ tp < rd (effective rd (P.map PF.Part.w) / P.length) →
      resample rd P n0 force t tp u = some (false, P, (List.range P.length).map fun i => some (nw rd (P.map PF.Part.w) i))) ∧
    (¬ (force = false ∧ t < effective rd (P.map PF.Part.w) ∧ tp < rd (effective rd (P.map PF.Part.w) / P.length)) →
      (rsum rd (nw rd (P.map PF.Part.w)) (P.length - 1) < sp rd n u (n - 1) → resample rd P n0 force t tp u = none) ∧
      (sp rd n u (n - 1) ≤ rsum rd (nw rd (P.map PF.Part.w)) (P.length - 1) →
        ∃ (P' : List (PF.Part S ℚ)) (L src : List ℕ), resample rd P n0 force t tp u = some (true, P', List.replicate n (some 1)) ∧ P'.length = n ∧ L.length = n ∧
          (∀ m, (h : m < L.length) → IsLeast {j | j < P.length ∧ sp rd n u m ≤ rsum rd (nw rd (P.map PF.Part.w)) j} L[m]) ∧
          src.Perm L ∧ ∀ s, s < n → P'[s]? = (src[s]?.bind fun j => P[j]?).map fun p => { p with parent := p.id })) := by
  obtain ⟨ws, hws⟩ : ∃ ws, ws = P.map PF.Part.w := ⟨_, rfl⟩
  rw [← hws]
  have hlenw : ws.length = P.length := by rw [hws]; simp
  have hww : ∀ w ∈ ws, 0 ≤ w := by
    intro w h; rw [hws] at h
    obtain ⟨p, hp, rfl⟩ := List.mem_map.mp h
    exact hw p hp
  have hpw : ∃ w ∈ ws, 0 < w := by
    obtain ⟨p, hp, h⟩ := hpos
    exact ⟨p.w, by rw [hws]; exact List.mem_map_of_mem hp, h⟩
  have hN : 0 < P.length := by
    obtain ⟨p, hp, _⟩ := hpos
    exact List.length_pos_of_mem hp
  have hn1 : 0 < n ∧ n ≤ P.length := by
    rw [hn]
    split
    · omega
    · rename_i h
      rw [not_or] at h
      omega
  have hS := foldl_pos hrd ws hww 0 (le_refl _) (Or.inr hpw)
  have hvs : normWeights rd (P.map fun p => some p.w) = (List.range P.length).map fun i => some (nw rd ws i) := by
    have h1 : (P.map fun p => some p.w) = ws.map some := by rw [hws, List.map_map]; rfl
    rw [h1, normWeights_eq hrd ws hS.ne']
    apply List.ext_getElem
    · simp [hlenw]
    · intro i h1 h2
      rw [List.getElem_map, map_nw, List.getElem_map, List.getElem_range]
  have hfold : ∀ (l : List ℕ) (a : ℚ),
      (l.map fun i => some (nw rd ws i)).foldl (fun a w => fadd rd a (fmul rd w w)) (some a) =
        some (l.foldl (fun a i => rd (a + rd (nw rd ws i * nw rd ws i))) a) := by
    intro l
    induction l with
    | nil => intro a; rfl
    | cons i l ih => intro a; exact ih _
  have hfpos : ∀ (l : List ℕ) (a : ℚ), 0 ≤ a → (0 < a ∨ ∃ i ∈ l, 0 < nw rd ws i) →
      0 < l.foldl (fun a i => rd (a + rd (nw rd ws i * nw rd ws i))) a := by
    intro l
    induction l with
    | nil =>
      rintro a _ (h | ⟨i, hi, _⟩)
      · exact h
      · simp at hi
    | cons i l ih =>
      intro a ha h
      have hsq : 0 ≤ rd (nw rd ws i * nw rd ws i) := hrd.nonneg (mul_self_nonneg _)
      apply ih _ (hrd.nonneg (by linarith))
      rcases h with h | ⟨j, hj, hj0⟩
      · exact Or.inl (rd_pos hrd (by linarith))
      · rcases List.mem_cons.mp hj with rfl | hj
        · have : 0 < rd (nw rd ws j * nw rd ws j) := rd_pos hrd (mul_pos hj0 hj0)
          exact Or.inl (rd_pos hrd (by linarith))
        · exact Or.inr ⟨j, hj, hj0⟩
  have hs2 : 0 < (List.range ws.length).foldl (fun a i => rd (a + rd (nw rd ws i * nw rd ws i))) 0 := by
    apply hfpos _ _ (le_refl _)
    obtain ⟨w, hw', hw0⟩ := hpw
    obtain ⟨i, hi, rfl⟩ := List.getElem_of_mem hw'
    refine Or.inr ⟨i, List.mem_range.mpr hi, ?_⟩
    unfold nw
    rw [List.getD_eq_getElem _ _ hi]
    exact rd_pos hrd (div_pos hw0 hS)
  have henough : enough rd ((List.range P.length).map fun i => some (nw rd ws i)) t tp = true ↔
      t < effective rd ws ∧ tp < rd (effective rd ws / P.length) := by
    have hNq : (P.length : ℚ) ≠ 0 := by exact_mod_cast hN.ne'
    rw [hlenw] at hs2
    simp only [enough, hfold, effective, hlenw, fdiv, Option.bind_some, hs2.ne', if_false, flt, List.length_map, List.length_range, hNq,
      Bool.and_eq_true, decide_eq_true_eq]
  have hex := C228_exact hrd hww hpw hn1.1 u
  have hsame : normWeights rd (ws.map some) = (List.range P.length).map fun i => some (nw rd ws i) := by
    rw [← hvs, hws, List.map_map]; rfl
  rw [hsame, hlenw] at hex
  refine ⟨?_, ?_⟩
  · intro h
    unfold resample
    simp only [hvs]
    rw [if_pos ⟨h.1, henough.mpr h.2⟩]
  · intro h
    have hneg : ¬ (force = false ∧ enough rd ((List.range P.length).map fun i => some (nw rd ws i)) t tp = true) := by
      rintro ⟨h1, h2⟩
      exact h ⟨h1, henough.mp h2⟩
    refine ⟨?_, ?_⟩
    · intro hlt
      have hnone : sample rd ((List.range P.length).map fun i => some (nw rd ws i)) n u = none := by
        rcases hsm : sample rd ((List.range P.length).map fun i => some (nw rd ws i)) n u with _ | L
        · rfl
        · exact absurd (hex.1.mp ⟨L, hsm⟩) (not_le.mpr hlt)
      unfold resample
      simp only [hvs]
      rw [if_neg hneg]
      simp only [← hn, hnone]
    · intro hle
      obtain ⟨L, hL⟩ := hex.1.mpr hle
      obtain ⟨hLn, hLl⟩ := hex.2 L hL
      have hiv : (0 : ℚ) ≤ rd (1 / n) := hrd.nonneg (by positivity)
      have hsort : L.Pairwise (· ≤ ·) := by
        rw [List.pairwise_iff_getElem]
        intro i j hi hj hij
        refine (hLl i hi).2 ⟨(hLl j hj).1.1, le_trans ?_ (hLl j hj).1.2⟩
        exact point_mono' hrd hiv (hrd.idem _) hij.le
      have hb : ∀ x ∈ L, x < P.length := by
        intro x hx
        obtain ⟨i, hi, rfl⟩ := List.getElem_of_mem hx
        exact (hLl i hi).1.1
      obtain ⟨P', h1, h2, src, h3, h4, h5, _⟩ := PF.copyLoop_result n P hn1.2 L hLn hsort hb
      refine ⟨P'.take n, L, src, ?_, ?_, hLn, hLl, h3, ?_⟩
      · unfold resample
        simp only [hvs]
        rw [if_neg hneg]
        simp only [← hn, hL, h1]
      · rw [List.length_take, h2]
        omega
      · intro s hs
        rw [List.getElem?_take_of_lt hs, h5 s (by omega), List.getElem?_eq_getElem (l := src) (by omega)]
        rfl

example : resample rnd [⟨10, 0, 9, 1⟩, ⟨20, 1, 9, 3⟩, (⟨30, 2, 9, 0⟩ : PF.Part ℕ ℚ)] 0 true 0 0 (1 / 2) =
    some (true, [⟨10, 0, 0, 1⟩, ⟨20, 1, 1, 3⟩, ⟨20, 1, 1, 3⟩], [some 1, some 1, some 1]) ∧
    resample rnd [⟨10, 0, 9, 1⟩, ⟨20, 1, 9, 3⟩, (⟨30, 2, 9, 0⟩ : PF.Part ℕ ℚ)] 0 false 1 (1 / 3) (1 / 2) =
      some (false, [⟨10, 0, 9, 1⟩, ⟨20, 1, 9, 3⟩, ⟨30, 2, 9, 0⟩], [some (1 / 4), some (3 / 4), some 0]) := by
  constructor <;> decide +kernel

/-- Particles that all have weight 1 (the state after construction with the default weight and after every resampling) are always
resampled without leaving the vector, for every value of the random number below 1. -/
theorem C228_uniform_partial {rd : ℚ → ℚ} (hrd : Nearest rd) {N : ℕ} (hN : 0 < N) (hN2 : N ≤ 2 ^ 53) {u : ℚ} (hu1 : u ≤ 1) :
    ∃ L, sample rd (normWeights rd ((List.replicate N (1 : ℚ)).map some)) N u = some L ∧ L.length = N := by
  have hw : ∀ w ∈ List.replicate N (1 : ℚ), 0 ≤ w := by
    intro w h; rw [List.eq_of_mem_replicate h]; norm_num
  have hpos : ∃ w ∈ List.replicate N (1 : ℚ), 0 < w := ⟨1, List.mem_replicate.mpr ⟨by omega, rfl⟩, by norm_num⟩
  have hex := C228_exact hrd hw hpos hN u
  have hsum : (List.replicate N (1 : ℚ)).foldl (fun a w => rd (a + w)) 0 = N := by
    have := foldl_ones hrd N 0 (by omega)
    simpa using this
  have hnw : ∀ i, i < N → nw rd (List.replicate N (1 : ℚ)) i = rd (1 / N) := by
    intro i hi
    unfold nw
    rw [hsum, List.getD_eq_getElem _ _ (by simpa using hi), List.getElem_replicate]
  have hoff : rd (rd (1 / N) * u) ≤ rd (1 / N) := by
    have h0 : (0 : ℚ) ≤ rd (1 / N) := hrd.nonneg (by positivity)
    have := hrd.mono (show rd (1 / N) * u ≤ rd (1 / N) by nlinarith)
    rwa [hrd.idem] at this
  have hle := point_le_rsum hrd hnw hoff (N - 1) (by omega)
  obtain ⟨L, hL⟩ := hex.1.mpr (by simpa [sp] using hle)
  exact ⟨L, hL, (hex.2 L hL).1⟩

example : sample rnd (normWeights rnd ((List.replicate 20 (1 : ℚ)).map some)) 20 ((2 ^ 48 - 1) / 2 ^ 48) = some (List.range 20) := by
  decide +kernel

/-- For every weights that are nonnegative and not all zero: sampling `n` from `N` particles stays inside the vector whenever the random
number is at most `1 - n (2 N + n + 1) / 2^53`. -/
theorem C228_bound_partial {rd : ℚ → ℚ} (hrd : Nearest rd) {ws : List ℚ} (hw : ∀ w ∈ ws, 0 ≤ w) (hpos : ∃ w ∈ ws, 0 < w) {n : ℕ}
    (hn : 0 < n) {u : ℚ} (hu0 : 0 ≤ u) (hu : u ≤ 1 - n * (2 * ws.length + n + 1) / 2 ^ 53) :
    ∃ L, sample rd (normWeights rd (ws.map some)) n u = some L ∧ L.length = n := by
  have hex := C228_exact hrd hw hpos hn u
  have hle := last_point_le hrd hw hpos hn hu0 hu
  have hfun : ∀ k, rsum rd (fun i => (ws.map fun w => rd (w / ws.foldl (fun x y => rd (x + y)) 0)).getD i 0) k =
      rsum rd (nw rd ws) k := by
    have h0 : ∀ i, (ws.map fun w => rd (w / ws.foldl (fun x y => rd (x + y)) 0)).getD i 0 = nw rd ws i := by
      intro i
      by_cases hi : i < ws.length
      · rw [List.getD_eq_getElem _ _ (by simpa using hi), map_nw]
      · rw [List.getD_eq_default _ _ (by simp; omega), nw, List.getD_eq_default _ _ (by omega), zero_div, hrd.zero]
    intro k
    congr 1
    funext i
    exact h0 i
  rw [hfun] at hle
  obtain ⟨L, hL⟩ := hex.1.mpr hle
  exact ⟨L, hL, (hex.2 L hL).1⟩

/-- The bound allows all but a fraction `10^-9` of the values of the random number for up to 1000 particles. -/
theorem C228_thousand_partial {rd : ℚ → ℚ} (hrd : Nearest rd) {ws : List ℚ} (hw : ∀ w ∈ ws, 0 ≤ w) (hpos : ∃ w ∈ ws, 0 < w)
    (hN : ws.length ≤ 1000) {n : ℕ} (hn : 0 < n) (hnN : n ≤ ws.length) {u : ℚ} (hu0 : 0 ≤ u) (hu : u ≤ 1 - 1 / 1000000000) :
    ∃ L, sample rd (normWeights rd (ws.map some)) n u = some L ∧ L.length = n := by
  apply C228_bound_partial hrd hw hpos hn hu0
  refine le_trans hu ?_
  have h1 : (ws.length : ℚ) ≤ 1000 := by exact_mod_cast hN
  have h2 : (n : ℚ) ≤ 1000 := by exact_mod_cast le_trans hnN hN
  have h3 : (0 : ℚ) ≤ n := by positivity
  have h4 : (n : ℚ) * (2 * ws.length + n + 1) ≤ 1000 * 3001 :=
    mul_le_mul h2 (by linarith) (by positivity) (by norm_num)
  have h5 : (n : ℚ) * (2 * ws.length + n + 1) / 2 ^ 53 ≤ 1 / 1000000000 := by
    rw [div_le_iff₀ (by norm_num)]
    refine le_trans h4 ?_
    norm_num
  linarith

example : ∃ L, sample rnd (normWeights rnd ((1 :: List.replicate 19 0).map some)) 20 (9 / 10) = some L ∧ L.length = 20 :=
  C228_thousand_partial nearest_rnd (by intro w hw; simp at hw; rcases hw with rfl | rfl <;> norm_num) ⟨1, by simp, by norm_num⟩ (by simp)
    (by norm_num) (by simp) (by norm_num) (by norm_num)

/-- In binary64 the claim fails: one of 20 particles carries the whole weight and `drand48()` returns its largest value `1 - 2^-48`; the
sampling loop reads a particle behind the last one. The same with 200 particles (the number in the supplied configuration files) and
`1 - 34 / 2^48`. -/
theorem C228_violated :
    (∃ (P : List (PF.Part Unit ℚ)) (u : ℚ), P.length = 20 ∧ (∀ p ∈ P, 0 ≤ p.w) ∧ (∃ p ∈ P, 0 < p.w) ∧ 0 ≤ u ∧ u < 1 ∧
        (∃ k : ℕ, u = k / 2 ^ 48) ∧ resample rnd P 0 true 0 0 u = none) ∧
      ∃ (P : List (PF.Part Unit ℚ)) (u : ℚ), P.length = 200 ∧ (∀ p ∈ P, 0 ≤ p.w) ∧ (∃ p ∈ P, 0 < p.w) ∧ 0 ≤ u ∧ u < 1 ∧
        (∃ k : ℕ, u = k / 2 ^ 48) ∧ resample rnd P 0 true 0 0 u = none := by
  have key : ∀ P : List (PF.Part Unit ℚ), ∀ u, P.length ≠ 0 → sample rnd (normWeights rnd (P.map fun p => some p.w)) P.length u = none →
      resample rnd P 0 true 0 0 u = none := by
    intro P u _ h
    simp [resample, h]
  refine ⟨⟨(List.range 20).map fun i => ⟨(), i, i, if i = 0 then 1 else 0⟩, (2 ^ 48 - 1) / 2 ^ 48, by simp, ?_, ?_, by norm_num,
      by norm_num, ⟨2 ^ 48 - 1, by norm_num⟩, ?_⟩,
    ⟨(List.range 200).map fun i => ⟨(), i, i, if i = 0 then 1 else 0⟩, (2 ^ 48 - 34) / 2 ^ 48, by simp, ?_, ?_, by norm_num,
      by norm_num, ⟨2 ^ 48 - 34, by norm_num⟩, ?_⟩⟩
  · intro p hp
    obtain ⟨i, _, rfl⟩ := List.mem_map.mp hp
    show (0 : ℚ) ≤ if i = 0 then 1 else 0
    split <;> norm_num
  · exact ⟨⟨(), 0, 0, 1⟩, List.mem_map.mpr ⟨0, by simp, by simp⟩, by norm_num⟩
  · exact key _ _ (by simp) (by decide +kernel)
  · intro p hp
    obtain ⟨i, _, rfl⟩ := List.mem_map.mp hp
    show (0 : ℚ) ≤ if i = 0 then 1 else 0
    split <;> norm_num
  · exact ⟨⟨(), 0, 0, 1⟩, List.mem_map.mpr ⟨0, by simp, by simp⟩, by norm_num⟩
  · exact key _ _ (by simp) (by decide +kernel)

/-! ### C229: weights that are all zero -/

/-- When every weight is zero, `resample` — forced or not, whatever the threshold and the random number — returns `true` and every particle
is a copy of the first particle: the other hypotheses are lost. -/
theorem C229_violated {rd : ℚ → ℚ} (h0 : rd 0 = 0) (p : PF.Part S ℚ) (P : List (PF.Part S ℚ)) (hw : ∀ x ∈ p :: P, x.w = 0) (n0 : ℕ)
    (force : Bool) (t tp u : ℚ) :
    resample rd (p :: P) n0 force t tp u =
      some (true, List.replicate (if n0 = 0 ∨ (p :: P).length < n0 then (p :: P).length else n0) { p with parent := p.id },
        List.replicate (if n0 = 0 ∨ (p :: P).length < n0 then (p :: P).length else n0) (some 1)) := by
  obtain ⟨n, hn⟩ : ∃ n, n = if n0 = 0 ∨ (p :: P).length < n0 then (p :: P).length else n0 := ⟨_, rfl⟩
  have hn1 : 1 ≤ n ∧ n ≤ P.length + 1 := by
    rw [hn]
    split
    · simp
    · rename_i h
      simp only [List.length_cons, not_or] at h
      omega
  rw [← hn]
  have hnan : normWeights rd ((p :: P).map fun x => some x.w) = List.replicate (P.length + 1) none := by
    have := normWeights_nan rd h0 ((p :: P).map fun x => x.w) (by
      intro w hw'
      obtain ⟨x, hx, rfl⟩ := List.mem_map.mp hw'
      exact hw x hx)
    rw [List.map_map, List.length_map, List.length_cons] at this
    exact this
  have hL : (fun i => decide (i ∈ List.replicate n 0)) = fun i : ℕ => decide (i = 0) := by
    funext i
    congr 1
    rw [List.mem_replicate]
    simp
    omega
  have hcopy : PF.copyLoop (fun i => decide (i ∈ List.replicate n 0)) n (List.replicate n 0) none (p :: P, 0) =
      some (List.replicate n { p with parent := p.id } ++ P.drop (n - 1)) := by
    rw [hL]
    obtain ⟨k, rfl⟩ : ∃ k, n = k + 1 := ⟨n - 1, by omega⟩
    rw [List.replicate_succ]
    have hst : PF.copyLoop (fun i : ℕ => decide (i = 0)) (k + 1) (0 :: List.replicate k 0) none (p :: P, 0) =
        PF.copyLoop (fun i : ℕ => decide (i = 0)) (k + 1) (List.replicate k 0) (some 0) ({ p with parent := p.id } :: P, 0) := by
      rw [PF.copyLoop]
      simp
    rw [hst]
    have := copyLoop_zero (fun i : ℕ => decide (i = 0)) (by intro i hi; simp [hi]) (by simp) (k + 1) { p with parent := p.id } rfl k 0 0 P
      (by omega) (Or.inr ⟨rfl, rfl⟩)
    rw [show 0 + 1 + k = k + 1 by omega] at this
    exact this
  have hres : resample rd (p :: P) n0 force t tp u =
      some (true, (List.replicate n { p with parent := p.id } ++ P.drop (n - 1)).take n, List.replicate n (some 1)) := by
    unfold resample
    simp only [hnan, enough_nan, ← hn, sample_nan, hcopy]
    simp
  rw [hres, List.take_append_of_le_length (by simp)]
  simp

/-- Non-vacuous: three different particles become three copies of the first one, without force and with threshold 0. -/
example : resample rnd [⟨10, 0, 0, 0⟩, ⟨20, 1, 1, 0⟩, (⟨30, 2, 2, 0⟩ : PF.Part ℕ ℚ)] 0 false 0 0 (1 / 2) =
    some (true, [⟨10, 0, 0, 0⟩, ⟨10, 0, 0, 0⟩, ⟨10, 0, 0, 0⟩], [some 1, some 1, some 1]) := by decide +kernel

/-- As soon as one weight is positive (all nonnegative), no NaN arises: the normalised weights are numbers, positive exactly where the
weight is; and a random number above 0 never selects a particle of weight zero. -/
theorem C229_partial {rd : ℚ → ℚ} (hrd : Nearest rd) {ws : List ℚ} (hw : ∀ w ∈ ws, 0 ≤ w) (hpos : ∃ w ∈ ws, 0 < w) :
    (∃ vs : List ℚ, normWeights rd (ws.map some) = vs.map some ∧ vs.length = ws.length ∧
      ∀ i, (h : i < vs.length) → (h' : i < ws.length) → 0 ≤ vs[i] ∧ (0 < vs[i] ↔ 0 < ws[i])) ∧
    ∀ n u L, 0 < n → 0 < u → sample rd (normWeights rd (ws.map some)) n u = some L → ∀ j ∈ L, ∃ h : j < ws.length, 0 < ws[j] := by
  have hSpos := foldl_pos hrd ws hw 0 (le_refl _) (Or.inr hpos)
  have hposiff : ∀ i, (h : i < ws.length) → (0 < nw rd ws i ↔ 0 < ws[i]) := by
    intro i h
    unfold nw
    rw [List.getD_eq_getElem _ _ h]
    constructor
    · intro hp
      by_contra hc
      have : ws[i] = 0 := le_antisymm (not_lt.mp hc) (hw _ (List.getElem_mem h))
      rw [this, zero_div, hrd.zero] at hp
      exact lt_irrefl _ hp
    · intro hp
      exact rd_pos hrd (div_pos hp hSpos)
  refine ⟨⟨_, normWeights_eq hrd ws hSpos.ne', by simp, ?_⟩, ?_⟩
  · intro i h h'
    rw [map_nw]
    exact ⟨nw_nonneg hrd hw i, hposiff i h'⟩
  · intro n u L hn hu hL j hj
    obtain ⟨m, hm, rfl⟩ := List.getElem_of_mem hj
    have hl := ((C228_exact hrd hw hpos hn u).2 L hL).2 m hm
    obtain ⟨⟨hlt, hle⟩, hmin⟩ := hl
    refine ⟨hlt, (hposiff _ hlt).mp ?_⟩
    by_contra hc
    have hz : nw rd ws L[m] = 0 := le_antisymm (not_lt.mp hc) (nw_nonneg hrd hw _)
    have hiv : (0 : ℚ) < rd (1 / n) := rd_pos hrd (by positivity)
    rcases hk : L[m] with _ | k
    · rw [hk] at hle hz
      have h1 : sp rd n u 0 ≤ sp rd n u m := point_mono' hrd hiv.le (hrd.idem _) (by omega)
      have h2 : 0 < sp rd n u 0 := rd_pos hrd (mul_pos hiv hu)
      have h3 : rsum rd (nw rd ws) 0 = 0 := hz
      rw [h3] at hle
      linarith
    · rw [hk] at hle hz hlt
      have h1 : rsum rd (nw rd ws) (k + 1) = rsum rd (nw rd ws) k := by
        show rd (rsum rd (nw rd ws) k + nw rd ws (k + 1)) = _
        rw [hz, add_zero]
        cases k with
        | zero => exact hrd.idem _
        | succ k => exact hrd.idem _
      rw [h1] at hle
      have := hmin ⟨by omega, hle⟩
      rw [hk] at this
      omega

example : normWeights rnd ([0, 1, 3].map some) = [some 0, some (1 / 4), some (3 / 4)] ∧
    sample rnd (normWeights rnd ([0, 1, 3].map some)) 3 (1 / 2) = some [1, 2, 2] := by decide +kernel

/-! ### C230: a time given in seconds -/

/-- A time of `m` nanoseconds, written in seconds as the nearest double and converted by `TimeStamp(double)`, becomes `m` or `m - 1`
nanoseconds, for all nonnegative times up to 2^22 s (48 days); the result is normalised. -/
theorem C230_partial {rd : ℚ → ℚ} (hrd : Nearest rd) {m : ℤ} (hm0 : 0 ≤ m) (hm1 : m ≤ 2 ^ 22 * 1000000000) :
    ∃ t, setTime rd (rd (m / 1000000000)) = some t ∧ 0 ≤ t.nsec ∧ t.nsec < 1000000000 ∧
      (t.sec * 1000000000 + t.nsec = m ∨ t.sec * 1000000000 + t.nsec = m - 1) := by
  have hq0 : (0 : ℚ) ≤ m := by exact_mod_cast hm0
  have hq1 : (m : ℚ) ≤ 2 ^ 22 * 1000000000 := by exact_mod_cast hm1
  have hx0 : (0 : ℚ) ≤ m / 1000000000 := by positivity
  have hx1 : (m : ℚ) / 1000000000 ≤ 2 ^ 22 := by rw [div_le_iff₀ (by norm_num)]; exact hq1
  have hr := hrd.rel ((m : ℚ) / 1000000000)
  rw [abs_of_nonneg hx0] at hr
  have hr2 : (m : ℚ) / 1000000000 / 2 ^ 53 ≤ 2 ^ 22 / 2 ^ 53 := div_le_div_of_nonneg_right hx1 (by norm_num)
  have hr3 := abs_le.mp (le_trans hr hr2)
  apply setTime_near hrd (hrd.nonneg hx0)
  · have : (2 : ℚ) ^ 22 + 2 ^ 22 / 2 ^ 53 ≤ 2 ^ 30 := by norm_num
    linarith [hr3.1]
  · have e : rd ((m : ℚ) / 1000000000) * 1000000000 - m = (rd ((m : ℚ) / 1000000000) - m / 1000000000) * 1000000000 := by field_simp
    rw [e, abs_le]
    have : (2 : ℚ) ^ 22 / 2 ^ 53 * 1000000000 ≤ 49 / 100 := by norm_num
    constructor <;> nlinarith [hr3.1, hr3.2]

/-- The claim that the time is kept exactly fails: 1.2 s becomes 1.199999999 s, and 5.1 s becomes 5.099999999 s. -/
theorem C230_violated :
    setTime rnd (rnd (12 / 10)) = some ⟨1, 199999999⟩ ∧ setTime rnd (rnd (51 / 10)) = some ⟨5, 99999999⟩ := by decide +kernel

/-- Times that are multiples of 1/512 s (whole seconds, halves, quarters, eighths, …) are kept exactly, for every rounding to nearest and all
nonnegative times below 2^30 s. -/
theorem C230_dyadic_partial {rd : ℚ → ℚ} (hrd : Nearest rd) {k : ℤ} (hk0 : 0 ≤ k) (hk1 : k ≤ 2 ^ 30 * 512) :
    setTime rd (rd (k / 512)) = some ⟨k / 512, k % 512 * 1953125⟩ := by
  have hrep : Rep ((k : ℚ) / 512) := by
    refine ⟨k, -9, by rw [abs_of_nonneg hk0]; omega, ?_⟩
    rw [zpow_neg, show (9 : ℤ) = ((9 : ℕ) : ℤ) by norm_num, zpow_natCast, div_eq_mul_inv]; norm_num
  have hq0 : (0 : ℚ) ≤ (k : ℚ) / 512 := div_nonneg (by exact_mod_cast hk0) (by norm_num)
  have hfl : ⌊(k : ℚ) / 512⌋ = k / 512 := by
    have e : (k : ℚ) = 512 * ((k / 512 : ℤ) : ℚ) + ((k % 512 : ℤ) : ℚ) := by
      exact_mod_cast (Int.mul_ediv_add_emod k 512).symm
    have e1 : (0 : ℚ) ≤ ((k % 512 : ℤ) : ℚ) := by
      have : 0 ≤ k % 512 := by omega
      exact_mod_cast this
    have e2 : ((k % 512 : ℤ) : ℚ) < 512 := by
      have : k % 512 < 512 := by omega
      exact_mod_cast this
    rw [Int.floor_eq_iff]
    constructor
    · rw [le_div_iff₀ (by norm_num)]; linarith
    · rw [div_lt_iff₀ (by norm_num)]; linarith
  have hx : ((k : ℚ) / 512 - ((k / 512 : ℤ) : ℚ)) * 1000000000 = ((k % 512 * 1953125 : ℤ) : ℚ) := by
    have : (k : ℚ) = 512 * ((k / 512 : ℤ) : ℚ) + ((k % 512 : ℤ) : ℚ) := by
      exact_mod_cast (Int.mul_ediv_add_emod k 512).symm
    push_cast
    linarith
  have hfix : rd ((k % 512 * 1953125 : ℤ) : ℚ) = ((k % 512 * 1953125 : ℤ) : ℚ) := by
    apply hrd.fix
    apply rep_int
    rw [abs_of_nonneg (by omega)]
    omega
  have hn0 : (0 : ℚ) ≤ ((k % 512 * 1953125 : ℤ) : ℚ) := by
    have : 0 ≤ k % 512 * 1953125 := by omega
    exact_mod_cast this
  rw [hrd.fix hrep]
  simp only [setTime, truncQ_floor hq0, hfl, hx, hfix, truncQ_floor hn0, Int.floor_intCast]
  have c1 : TimeStamp.chk32 (k / 512) = some (k / 512) := by
    unfold TimeStamp.chk32; rw [if_pos]; unfold TimeStamp.InI32; omega
  have c2 : TimeStamp.chk32 (k % 512 * 1953125) = some (k % 512 * 1953125) := by
    unfold TimeStamp.chk32; rw [if_pos]; unfold TimeStamp.InI32; omega
  rw [c1, c2]
  show TimeStamp.normalize _ = _
  have htm : Int.tmod (k % 512 * 1953125) 1000000000 = k % 512 * 1953125 := by
    rw [Int.tmod_eq_emod_of_nonneg (by omega)]; omega
  have htd : Int.tdiv (k % 512 * 1953125) 1000000000 = 0 := by
    rw [Int.tdiv_eq_ediv_of_nonneg (by omega)]; omega
  simp only [TimeStamp.normalize, htm, htd, add_zero]
  rw [if_neg (by omega), wrap32_id (by omega) (by omega)]

/-- 2.5 s, and every whole number of milliseconds below one second (these are a finite check). -/
example : setTime rnd (rnd (5 / 2)) = some ⟨2, 500000000⟩ ∧ ∀ k : Fin 1000, setTime rnd (rnd ((k.val : ℚ) / 1000)) = some ⟨0, k.val * 1000000⟩ := by decide +kernel

example : setTime rnd (rnd (1 / 10)) = some ⟨0, 100000000⟩ := by decide +kernel

/-! ### C231: to double and back -/

/-- `TimeStamp(t.getTimeAsDouble())` gives `t` or the time one nanosecond earlier, for every normalised `t` with `0 ≤ sec < 2^22`. -/
theorem C231_partial {rd : ℚ → ℚ} (hrd : Nearest rd) {t : TimeStamp.TS} (hs0 : 0 ≤ t.sec) (hs1 : t.sec < 2 ^ 22) (hn0 : 0 ≤ t.nsec)
    (hn1 : t.nsec < 1000000000) :
    ∃ t', setTime rd (Dbl.getTimeAsDouble rd t) = some t' ∧ 0 ≤ t'.nsec ∧ t'.nsec < 1000000000 ∧
      (t' = t ∨ t'.sec * 1000000000 + t'.nsec = t.sec * 1000000000 + t.nsec - 1) := by
  have qs0 : (0 : ℚ) ≤ t.sec := by exact_mod_cast hs0
  have qs1 : (t.sec : ℚ) ≤ 2 ^ 22 - 1 := by
    have : t.sec ≤ 2 ^ 22 - 1 := by omega
    exact_mod_cast this
  have qn0 : (0 : ℚ) ≤ t.nsec := by exact_mod_cast hn0
  have qn1 : (t.nsec : ℚ) ≤ 1000000000 := by exact_mod_cast hn1.le
  obtain ⟨c, hc⟩ : ∃ c, c = rd (1 / 1000000000) := ⟨_, rfl⟩
  have hc1 := hrd.rel (1 / 1000000000)
  rw [← hc] at hc1
  rw [abs_of_nonneg (show (0 : ℚ) ≤ 1 / 1000000000 by norm_num)] at hc1
  have hc2 := abs_le.mp hc1
  have hcpos : 0 ≤ c := by rw [hc]; exact hrd.nonneg (by norm_num)
  -- the product
  obtain ⟨p, hp⟩ : ∃ p, p = rd (t.nsec * c) := ⟨_, rfl⟩
  have hp1 := hrd.rel (t.nsec * c)
  rw [← hp] at hp1
  rw [abs_of_nonneg (mul_nonneg qn0 hcpos)] at hp1
  have hp2 := abs_le.mp hp1
  have hp0 : 0 ≤ p := by rw [hp]; exact hrd.nonneg (mul_nonneg qn0 hcpos)
  have hcu : c ≤ 1 / 1000000000 * (1 + 1 / 2 ^ 53) := by linarith [hc2.1]
  have hcl : 1 / 1000000000 * (1 - 1 / 2 ^ 53) ≤ c := by linarith [hc2.2]
  have hncu : t.nsec * c ≤ t.nsec / 1000000000 + 1 / 2 ^ 53 := by
    have := mul_le_mul_of_nonneg_left hcu qn0
    have e : (t.nsec : ℚ) * (1 / 1000000000 * (1 + 1 / 2 ^ 53)) = t.nsec / 1000000000 + t.nsec / 1000000000 * (1 / 2 ^ 53) := by ring
    have h1 : (t.nsec : ℚ) / 1000000000 ≤ 1 := by rw [div_le_one (by norm_num)]; exact qn1
    nlinarith [show (0 : ℚ) < 1 / 2 ^ 53 by norm_num]
  have hncl : t.nsec / 1000000000 - 1 / 2 ^ 53 ≤ t.nsec * c := by
    have := mul_le_mul_of_nonneg_left hcl qn0
    have e : (t.nsec : ℚ) * (1 / 1000000000 * (1 - 1 / 2 ^ 53)) = t.nsec / 1000000000 - t.nsec / 1000000000 * (1 / 2 ^ 53) := by ring
    have h1 : (t.nsec : ℚ) / 1000000000 ≤ 1 := by rw [div_le_one (by norm_num)]; exact qn1
    nlinarith [show (0 : ℚ) < 1 / 2 ^ 53 by norm_num]
  have hnd : (t.nsec : ℚ) / 1000000000 ≤ 1 := by rw [div_le_one (by norm_num)]; exact qn1
  have hnd0 : (0 : ℚ) ≤ (t.nsec : ℚ) / 1000000000 := by positivity
  have hnc2 : t.nsec * c / 2 ^ 53 ≤ 2 / 2 ^ 53 := by
    apply div_le_div_of_nonneg_right _ (by norm_num)
    linarith [show (1 : ℚ) / 2 ^ 53 ≤ 1 by norm_num]
  have hpu : p ≤ t.nsec / 1000000000 + 3 / 2 ^ 53 := by linarith [hp2.1]
  have hpl : t.nsec / 1000000000 - 3 / 2 ^ 53 ≤ p := by linarith [hp2.2]
  -- the sum
  have hsp0 : (0 : ℚ) ≤ t.sec + p := add_nonneg qs0 hp0
  have hd1 := hrd.rel (t.sec + p)
  rw [abs_of_nonneg hsp0] at hd1
  have hd2 : ((t.sec : ℚ) + p) / 2 ^ 53 ≤ (2 ^ 22 + 1) / 2 ^ 53 := by
    apply div_le_div_of_nonneg_right _ (by norm_num)
    linarith [show (3 : ℚ) / 2 ^ 53 ≤ 1 by norm_num]
  have hd3 := abs_le.mp (le_trans hd1 hd2)
  have hD : Dbl.getTimeAsDouble rd t = rd (t.sec + p) := by rw [Dbl.getTimeAsDouble, ← hc, ← hp]
  have key := setTime_near hrd (d := Dbl.getTimeAsDouble rd t) (m := t.sec * 1000000000 + t.nsec)
    (by rw [hD]; exact hrd.nonneg (by linarith))
    (by
      rw [hD]
      have : (2 : ℚ) ^ 22 + 1 + (2 ^ 22 + 1) / 2 ^ 53 + 3 / 2 ^ 53 ≤ 2 ^ 30 := by norm_num
      linarith [hd3.1])
    (by
      rw [hD, abs_le]
      push_cast
      have k1 : rd (t.sec + p) ≤ t.sec + t.nsec / 1000000000 + ((2 ^ 22 + 1) / 2 ^ 53 + 3 / 2 ^ 53) := by linarith [hd3.1]
      have k2 : t.sec + t.nsec / 1000000000 - ((2 ^ 22 + 1) / 2 ^ 53 + 3 / 2 ^ 53) ≤ rd (t.sec + p) := by linarith [hd3.2]
      have k3 : (((2 : ℚ) ^ 22 + 1) / 2 ^ 53 + 3 / 2 ^ 53) * 1000000000 ≤ 49 / 100 := by norm_num
      have e : ((t.sec : ℚ) + t.nsec / 1000000000) * 1000000000 = t.sec * 1000000000 + t.nsec := by field_simp
      constructor <;> nlinarith [k1, k2, k3])
  obtain ⟨t', h1, h2, h3, h4⟩ := key
  refine ⟨t', h1, h2, h3, ?_⟩
  rcases h4 with h | h
  · left
    have ha : t'.sec = t.sec := by omega
    have hb : t'.nsec = t.nsec := by omega
    cases t'; cases t; simp_all
  · exact Or.inr h

/-- The round trip is not the identity: (5 s, 100000000 ns) comes back one nanosecond early; a time stamp of the size of a Unix time
comes back 120 ns wrong. -/
theorem C231_violated :
    setTime rnd (Dbl.getTimeAsDouble rnd ⟨5, 100000000⟩) = some ⟨5, 99999999⟩ ∧
      ∃ t t' : TimeStamp.TS, 0 ≤ t.nsec ∧ t.nsec < 1000000000 ∧ setTime rnd (Dbl.getTimeAsDouble rnd t) = some t' ∧
        t'.sec = t.sec ∧ t.nsec - t'.nsec = 120 := by
  refine ⟨by decide +kernel, ⟨1500000000, 596⟩, ⟨1500000000, 476⟩, by decide +kernel, by decide +kernel, by decide +kernel, by decide +kernel,
    by decide +kernel⟩

example : setTime rnd (Dbl.getTimeAsDouble rnd ⟨3, 500000000⟩) = some ⟨3, 500000000⟩ := by decide +kernel

/-! ### C232: the loops that normalise an angle end -/

/-- The double nearest to π (`acos(-1)`), include/RandomVec.hpp 58. -/
def pi64 : ℚ := 884279719003555 / 281474976710656

/-- For every angle of absolute value up to 2^50, the two loops end after at most `|b| / 5 + 2` tests each and leave an angle between `-PI`
and `PI`, for every rounding to nearest. -/
theorem C232_partial {rd : ℚ → ℚ} (hrd : Nearest rd) {b : ℚ} (hb : |b| ≤ 2 ^ 50) {fuel : ℕ} (hf : |b| + 7 ≤ 5 * fuel) :
    ∃ r, wrap rd pi64 fuel b = some r ∧ -pi64 ≤ r ∧ r ≤ pi64 :=
  wrap_ok hrd (by norm_num [pi64]) (by norm_num [pi64])
    ⟨884279719003555, -48, by norm_num, by rw [pi64, zpow_neg, show (48 : ℤ) = ((48 : ℕ) : ℤ) by norm_num, zpow_natCast]; norm_num⟩ hb hf

example : (wrap rnd pi64 5 10).isSome = true := by decide +kernel

/-- For an angle of 2^60 the first loop never ends: subtracting `2 * PI` does not change the double. -/
theorem C232_violated : ∀ fuel, wrap rnd pi64 fuel (2 ^ 60) = none := by
  have hs : rnd (2 ^ 60 - 2 * pi64) = 2 ^ 60 := by decide +kernel
  have hg : pi64 < 2 ^ 60 := by norm_num [pi64]
  have : ∀ fuel, wrapDown rnd pi64 fuel (2 ^ 60) = none := by
    intro fuel
    induction fuel with
    | zero => rfl
    | succ fuel ih => simp only [wrapDown, hg, if_true, hs, ih]
  intro fuel
  simp [wrap, this]

end DblProps
end RFS
