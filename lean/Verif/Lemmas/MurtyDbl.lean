import Verif.Model.MurtyDbl
import Verif.Lemmas.HungDblRow
import Verif.Lemmas.MurtyBlock

/-!
Murty's algorithm in doubles: the later calls solve problems with one row of forbidden entries, for which the Hungarian
method does not fail (`HungDbl.solve_row`).
-/

set_option linter.unusedSectionVars false

namespace RFS
namespace MurtyDbl
open Dbl Hungarian Murty

variable {n : Nat}

/-! ### Sums in doubles -/

theorem foldl_err {rd : ℚ → ℚ} (hrd : Nearest rd) {α : Type*} (f : α → ℚ) {M : ℚ} (hM : ∀ x, |f x| ≤ M) (hM0 : 0 ≤ M)
    {N : ℕ} (hN : N ≤ 2 ^ 52) : ∀ (l : List α) (j : ℕ) (s e : ℚ), |e| ≤ j * M → |s - e| ≤ j * (2 * N * M / 2 ^ 53) →
      j + l.length ≤ N →
      |l.foldl (fun s x => rd (s + f x)) s - (e + (l.map f).sum)| ≤ ((j + l.length : ℕ) : ℚ) * (2 * N * M / 2 ^ 53) := by
  intro l
  induction l with
  | nil => intro j s e _ h2 _; simpa using h2
  | cons x l ih =>
    intro j s e h1 h2 h3
    simp only [List.length_cons] at h3
    have hN' : (N : ℚ) ≤ 2 ^ 52 := by exact_mod_cast hN
    have hN0 : (0 : ℚ) ≤ N := Nat.cast_nonneg N
    have hu : 0 ≤ 2 * N * M / 2 ^ 53 := by positivity
    have hjN : (j : ℚ) + 1 ≤ N := by exact_mod_cast (by omega : j + 1 ≤ N)
    have hj0 : (0 : ℚ) ≤ j := Nat.cast_nonneg j
    have e1 : |e + f x| ≤ ((j + 1 : ℕ) : ℚ) * M := by
      push_cast
      refine le_trans (abs_add_le _ _) ?_
      have := hM x
      linarith
    have hNM : 0 ≤ N * M := mul_nonneg hN0 hM0
    have e2 : |s + f x| ≤ 2 * N * M := by
      have g1 : s + f x = (s - e) + (e + f x) := by ring
      rw [g1]
      refine le_trans (abs_add_le _ _) ?_
      have g2 : (j : ℚ) * (2 * N * M / 2 ^ 53) ≤ N * M := by
        have : (j : ℚ) * (2 * N * M / 2 ^ 53) = (j / 2 ^ 52) * (N * M) := by ring
        rw [this]
        have : (j : ℚ) / 2 ^ 52 ≤ 1 := by rw [div_le_one (by norm_num)]; linarith
        calc (j : ℚ) / 2 ^ 52 * (N * M) ≤ 1 * (N * M) := mul_le_mul_of_nonneg_right this hNM
          _ = N * M := one_mul _
      have g3 : ((j + 1 : ℕ) : ℚ) * M ≤ N * M := by
        push_cast
        exact mul_le_mul_of_nonneg_right hjN hM0
      linarith
    have e3 : |rd (s + f x) - (e + f x)| ≤ ((j + 1 : ℕ) : ℚ) * (2 * N * M / 2 ^ 53) := by
      have g1 : rd (s + f x) - (e + f x) = (s - e) - (s + f x - rd (s + f x)) := by ring
      rw [g1]
      refine le_trans (abs_sub _ _) ?_
      have g2 := hrd.rel (s + f x)
      have g3 : |s + f x| / 2 ^ 53 ≤ 2 * N * M / 2 ^ 53 := div_le_div_of_nonneg_right e2 (by norm_num)
      push_cast
      linarith
    have := ih (j + 1) (rd (s + f x)) (e + f x) e1 e3 (by omega)
    simp only [List.foldl_cons, List.map_cons, List.sum_cons, List.length_cons]
    have r1 : e + (f x + (l.map f).sum) = e + f x + (l.map f).sum := by ring
    rw [r1]
    have r2 : j + (l.length + 1) = j + 1 + l.length := by omega
    rw [r2]
    exact this

/-- The bound on the error of a score. -/
def err (n : Nat) (M : ℚ) : ℚ := (n + 1) * (2 * ((n + 1 : ℕ) : ℚ) * M / 2 ^ 53)

theorem sum_list (l : List (Fin n)) (p : Fin n → Bool) (f : Fin n → ℚ) (rd : ℚ → ℚ) (s : ℚ) :
    l.foldl (fun s i => if p i = true then rd (s + f i) else s) s = (l.filter p).foldl (fun s i => rd (s + f i)) s := by
  induction l generalizing s with
  | nil => rfl
  | cons x l ih =>
    simp only [List.foldl_cons, List.filter_cons]
    by_cases h : p x = true
    · simp [h, ih]
    · simp [h, ih]

/-- The score of a child, lines 294-304, is the total up to `err`. -/
theorem score_err {rd : ℚ → ℚ} (hrd : Nearest rd) {k : Nat} (hk : k ≤ n) (hn : n + 1 ≤ 2 ^ 52) (f : Fin n → ℚ) {M : ℚ}
    (hM0 : 0 ≤ M) (hM : ∀ i, |f i| ≤ M) :
    |rd ((List.finRange (n - k)).foldl (fun s r => rd (s + f ⟨k + r.val, by omega⟩)) 0 +
        (List.finRange n).foldl (fun s i => if i.val < k then rd (s + f i) else s) 0) - ∑ i, f i| ≤ err n M := by
  set A := (List.finRange (n - k)).foldl (fun s (r : Fin (n - k)) => rd (s + f ⟨k + r.val, by omega⟩)) 0 with hA
  set B := (List.finRange n).foldl (fun s (i : Fin n) => if i.val < k then rd (s + f i) else s) 0 with hB
  have hsplit := sum_split hk f
  have a1 := foldl_err hrd (fun r : Fin (n - k) => f ⟨k + r.val, by omega⟩) (fun r => hM _) hM0 hn (List.finRange (n - k)) 0 0 0
    (by simp) (by simp) (by simp; omega)
  have hB' : B = ((List.finRange n).filter fun i => decide (i.val < k)).foldl (fun s i => rd (s + f i)) 0 := by
    rw [hB, ← sum_list]
    simp
  have hlen : ((List.finRange n).filter fun i => decide (i.val < k)).length = k := by
    rw [← List.countP_eq_length_filter]
    have h1 : (List.finRange n).countP (fun i => decide (i.val < k)) = ((List.finRange n).map Fin.val).countP (fun i => decide (i < k)) := by
      rw [List.countP_map]; rfl
    rw [h1, List.map_coe_finRange_eq_range, List.countP_eq_length_filter]
    have h2 : (List.range n).filter (fun i => decide (i < k)) = List.range k := by
      obtain ⟨d, rfl⟩ : ∃ d, n = k + d := ⟨n - k, by omega⟩
      rw [List.range_add, List.filter_append]
      have g1 : (List.range k).filter (fun i => decide (i < k)) = List.range k := by
        rw [List.filter_eq_self]; intro a ha; simpa using ha
      have g2 : ((List.range d).map (k + ·)).filter (fun i => decide (i < k)) = [] := by
        rw [List.filter_eq_nil_iff]; intro a ha
        simp only [List.mem_map, List.mem_range] at ha
        obtain ⟨b, -, rfl⟩ := ha
        simp
      rw [g1, g2, List.append_nil]
    rw [h2, List.length_range]
  have a2 := foldl_err hrd f hM hM0 hn ((List.finRange n).filter fun i => decide (i.val < k)) 0 0 0
    (by simp) (by simp) (by rw [hlen]; omega)
  rw [← hB', hlen] at a2
  rw [← hA] at a1
  simp only [List.length_finRange, zero_add] at a1 a2
  have s1 : ((List.finRange (n - k)).map fun r : Fin (n - k) => f ⟨k + r.val, by omega⟩).sum = ∑ r : Fin (n - k), f ⟨k + r.val, by omega⟩ :=
    (Fin.sum_univ_def _).symm
  have s2 : (((List.finRange n).filter fun i => decide (i.val < k)).map f).sum = ∑ i : Fin n, if i.val < k then f i else 0 := by
    rw [Fin.sum_univ_def]
    induction List.finRange n with
    | nil => rfl
    | cons x l ih =>
      simp only [List.filter_cons, List.map_cons, List.sum_cons]
      by_cases h : x.val < k
      · simp [h, ih]
      · simp [h, ih]
  rw [s1] at a1
  rw [s2] at a2
  set P := ∑ r : Fin (n - k), f ⟨k + r.val, by omega⟩ with hP
  set Q := ∑ i : Fin n, (if i.val < k then f i else 0) with hQ
  set u := 2 * ((n + 1 : ℕ) : ℚ) * M / 2 ^ 53 with hu
  have hu0 : 0 ≤ u := by rw [hu]; positivity
  rw [hsplit]
  have h1 : |A + B - (P + Q)| ≤ n * u := by
    have g : A + B - (P + Q) = (A - P) + (B - Q) := by ring
    rw [g]
    refine le_trans (abs_add_le _ _) ?_
    have : ((n - k : ℕ) : ℚ) * u + (k : ℚ) * u = n * u := by
      rw [← add_mul]; congr 1; rw [Nat.cast_sub hk]; ring
    linarith
  have hPQ : |P + Q| ≤ n * M := by
    rw [← hsplit]
    refine le_trans (Finset.abs_sum_le_sum_abs _ _) ?_
    refine le_trans (Finset.sum_le_card_nsmul _ _ M fun i _ => hM i) ?_
    simp
  have h2 : |A + B| ≤ 2 * ((n + 1 : ℕ) : ℚ) * M := by
    have g : A + B = (A + B - (P + Q)) + (P + Q) := by ring
    rw [g]
    refine le_trans (abs_add_le _ _) ?_
    have hn' : (n : ℚ) ≤ 2 ^ 52 := by exact_mod_cast (by omega : n ≤ 2 ^ 52)
    have hn0 : (0 : ℚ) ≤ n := Nat.cast_nonneg n
    have : (n : ℚ) * u ≤ (n + 1) * M := by
      have e : (n : ℚ) * u = (n / 2 ^ 52) * ((n + 1) * M) := by rw [hu]; push_cast; ring
      rw [e]
      have : (n : ℚ) / 2 ^ 52 ≤ 1 := by rw [div_le_one (by norm_num)]; exact hn'
      calc (n : ℚ) / 2 ^ 52 * ((n + 1) * M) ≤ 1 * ((n + 1) * M) := mul_le_mul_of_nonneg_right this (by positivity)
        _ = (n + 1) * M := one_mul _
    push_cast
    nlinarith
  have h3 := hrd.rel (A + B)
  have h4 : |A + B| / 2 ^ 53 ≤ u := by rw [hu]; exact div_le_div_of_nonneg_right h2 (by norm_num)
  have g : rd (A + B) - (P + Q) = (A + B - (P + Q)) - (A + B - rd (A + B)) := by ring
  rw [g]
  refine le_trans (abs_sub _ _) ?_
  unfold err
  rw [← hu]
  linarith

/-! ### One child -/

/-- What is known of a node: a permutation, a score near its total, ancestors that agree with it. -/
structure NodeD (C : Mat ℚ n) (δ : ℚ) (x : Node ℚ n) : Prop where
  bij : Function.Bijective x.a
  score : |x.s - total C x.a| ≤ δ
  chain : ChainOK x.id x.a x.chain

theorem chainD {C : Mat ℚ n} {δ : ℚ} {p : Node ℚ n} (hp : NodeD C δ p) {k : Nat} (hk : p.id ≤ k) :
    ChainOK k p.a ((p.id, p.a) :: p.chain) := by
  refine ⟨hk, fun _ _ => rfl, hp.bij, fun h => ?_⟩
  have : p.id = k := le_antisymm hk h.2
  rw [← this]; exact hp.chain

open Classical in
/-- The matrix of the reduced problem. -/
noncomputable def red (prm : Prm ℚ n) (p : Node ℚ n) {k : Nat} (hkn : k < n) (hlen : (freeCols p.a k).length = n - k) : Mat ℚ (n - k) := fun r c =>
  if r.val = 0 ∧ forbX prm.nC (freeCols p.a k) ⟨k, hkn⟩ ((p.id, p.a) :: p.chain) ((freeCols p.a k).get (c.cast hlen.symm))
  then -10000 else prm.C ⟨k + r.val, by omega⟩ ((freeCols p.a k).get (c.cast hlen.symm))

theorem child_run {rd : ℚ → ℚ} (hrd : Nearest rd) {prm : Prm ℚ n} (hC : ∀ i j, -1001 ≤ prm.C i j ∧ prm.C i j ≤ 2000)
    (hbig : prm.big = 10000) (hn : n + 1 ≤ 2 ^ 52) (hf : n * (n + 1) < prm.fuel) {p : Node ℚ n}
    (hp : NodeD prm.C (err n 2000) p) {k : Nat} (hk : p.id ≤ k) (hkn : k < n) (hlen : (freeCols p.a k).length = n - k) :
    (child rd prm p k = .impossible ∧ ∀ c, red prm p hkn hlen ⟨0, by omega⟩ c = -10000) ∨
    ∃ (soln : Fin (n - k) → Fin (n - k)) (x : Node ℚ n), Function.Bijective soln ∧ child rd prm p k = .node x ∧ x.id = k ∧
      x.a = merge p.a hlen soln ∧ x.chain = (p.id, p.a) :: p.chain ∧ NodeD prm.C (err n 2000) x ∧
      (∃ c, red prm p hkn hlen ⟨0, by omega⟩ c ≠ -10000) ∧
      ∀ τ : Fin (n - k) → Fin (n - k), Function.Bijective τ →
        ∑ r, red prm p hkn hlen r (τ r) ≤ ∑ r, red prm p hkn hlen r (soln r) + n * (5 / 10 ^ 12) := by
  classical
  have hch := chainD hp hk
  have hm : 0 < n - k := by omega
  have hfs := forbid_specX (prm := prm) hkn hlen ((p.id, p.a) :: p.chain)
    (fun r c => prm.C ⟨k + r.val, by omega⟩ ((freeCols p.a k).get (c.cast hlen.symm))) (by simp) hch
  have hred : (fun (r c : Fin (n - k)) =>
      if r.val = 0 ∧ forbX prm.nC (freeCols p.a k) ⟨k, hkn⟩ ((p.id, p.a) :: p.chain) ((freeCols p.a k).get (c.cast hlen.symm)) then -prm.big
      else prm.C ⟨k + r.val, by omega⟩ ((freeCols p.a k).get (c.cast hlen.symm))) = red prm p hkn hlen := by
    funext r c
    unfold red
    rw [hbig]
  rw [hred] at hfs
  unfold child
  simp only
  rw [dif_pos ⟨hlen, hkn⟩]
  simp only [hfs, hbig]
  by_cases hex : ∃ c : Fin (n - k), red prm p hkn hlen ⟨0, hm⟩ c ≠ -10000
  · right
    rw [if_pos hex]
    have hf' : (n - k) * ((n - k) + 1) < prm.fuel := lt_of_le_of_lt (Nat.mul_le_mul (by omega) (by omega)) hf
    obtain ⟨soln, cost, C', hb, hrun, hbest⟩ := HungDbl.solve_row hrd (red prm p hkn hlen) ⟨0, hm⟩ (by
      intro x y
      unfold red
      by_cases h : x.val = 0 ∧ forbX prm.nC (freeCols p.a k) ⟨k, hkn⟩ ((p.id, p.a) :: p.chain) ((freeCols p.a k).get (y.cast hlen.symm))
      · left; exact ⟨Fin.ext h.1, by rw [if_pos h]⟩
      · right; rw [if_neg h]; exact hC _ _) (by
      have hmem : p.a ⟨k, hkn⟩ ∈ freeCols p.a k := by
        rw [mem_freeCols]
        intro i hi e
        have := congrArg Fin.val (hp.bij.1 e)
        simp only at this; omega
      obtain ⟨c, hc⟩ := List.get_of_mem hmem
      refine ⟨c.cast hlen, ?_⟩
      unfold red
      rw [if_pos]
      refine ⟨rfl, ?_⟩
      left; left
      simpa using hc) prm.fuel hf'
    simp only [hrun]
    refine ⟨soln, _, hb, rfl, rfl, rfl, rfl, ⟨merge_bij (hlen := hlen) hp.bij hb, ?_, ?_⟩, hex, ?_⟩
    · have hM : ∀ i, |prm.C i (merge p.a hlen soln i)| ≤ 2000 := by
        intro i
        have := hC i (merge p.a hlen soln i)
        rw [abs_le]; constructor <;> linarith [this.1, this.2]
      have h := score_err hrd hkn.le hn (fun i => prm.C i (merge p.a hlen soln i)) (by norm_num) hM
      have e : (List.finRange n).foldl (fun s (i : Fin n) => if i.val < k then rd (s + prm.C i (p.a i)) else s) 0 =
          (List.finRange n).foldl (fun s (i : Fin n) => if i.val < k then rd (s + prm.C i (merge p.a hlen soln i)) else s) 0 := by
        congr 1
        funext s i
        split
        · rename_i h; rw [merge_lt h]
        · rfl
      show |rd ((List.finRange (n - k)).foldl (fun s r => rd (s + prm.C ⟨k + r.val, by omega⟩ (merge p.a hlen soln ⟨k + r.val, by omega⟩))) 0 +
        (List.finRange n).foldl (fun s i => if i.val < k then rd (s + prm.C i (p.a i)) else s) 0) - ∑ i, prm.C i (merge p.a hlen soln i)| ≤ err n 2000
      rw [e]
      exact h
    · show ChainOK k (merge p.a hlen soln) ((p.id, p.a) :: p.chain)
      exact chainOK_congr (fun i hi => (merge_lt (hlen := hlen) (soln := soln) hi).symm) hch
    · intro τ hτ
      refine le_trans (hbest τ hτ) ?_
      have : ((n - k : ℕ) : ℚ) ≤ n := by exact_mod_cast Nat.sub_le n k
      have := mul_le_mul_of_nonneg_right this (show (0 : ℚ) ≤ 5 / 10 ^ 12 by norm_num)
      linarith
  · left
    rw [if_neg hex]
    refine ⟨rfl, ?_⟩
    push Not at hex
    exact hex

/-! ### All later calls return something defined -/

theorem expand_def {rd : ℚ → ℚ} (hrd : Nearest rd) {prm : Prm ℚ n} (hC : ∀ i j, -1001 ≤ prm.C i j ∧ prm.C i j ≤ 2000)
    (hbig : prm.big = 10000) (hn : n + 1 ≤ 2 ^ 52) (hf : n * (n + 1) < prm.fuel) {p : Node ℚ n}
    (hp : NodeD prm.C (err n 2000) p) (Q : PQ ℚ n) : ∀ (ks : List Nat) (h : Q.H), (∀ k ∈ ks, p.id ≤ k ∧ k < n) →
      (∀ x ∈ Q.elems h, NodeD prm.C (err n 2000) x) →
      ∃ h', expand rd Q prm p ks h = some h' ∧ ∀ x ∈ Q.elems h', NodeD prm.C (err n 2000) x
  | [], h, _, hq => ⟨h, rfl, hq⟩
  | k :: ks, h, hks, hq => by
    have hk := hks k (by simp)
    have hlen := length_freeCols hp.bij hk.2.le
    rcases child_run hrd hC hbig hn hf hp hk.1 hk.2 hlen with ⟨e, -⟩ | ⟨soln, x, -, e, -, -, -, hx, -⟩
    · obtain ⟨h', e', h1⟩ := expand_def hrd hC hbig hn hf hp Q ks h (fun k' hk' => hks k' (by simp [hk'])) hq
      exact ⟨h', by simp only [expand, e, e'], h1⟩
    · obtain ⟨h', e', h1⟩ := expand_def hrd hC hbig hn hf hp Q ks (Q.push h x) (fun k' hk' => hks k' (by simp [hk'])) (by
        intro y hy
        rw [Q.elems_push] at hy
        rcases Multiset.mem_cons.1 hy with rfl | hy
        · exact hx
        · exact hq y hy)
      exact ⟨h', by simp only [expand, e, e'], h1⟩

theorem mem_parts' {m id k : Nat} (h : k ∈ (List.range m).drop id) : id ≤ k ∧ k < m := by
  rw [List.range_eq_range', List.drop_range'] at h
  simp [List.mem_range'_1] at h; omega

/-- From a state after the first call on, every call returns a permutation with its score, or `-1`. -/
theorem calls_def {rd : ℚ → ℚ} (hrd : Nearest rd) {prm : Prm ℚ n} (hbig : prm.big = 10000) (hn : n + 1 ≤ 2 ^ 52)
    (hf : n * (n + 1) < prm.fuel) (hR : prm.nR ≤ n) (Q : PQ ℚ n) : ∀ (i : Nat) (st : St ℚ n Q), st.k ≠ 0 →
      (∀ i j, -1001 ≤ st.C i j ∧ st.C i j ≤ 2000) → (∀ x ∈ Q.elems st.pq, NodeD st.C (err n 2000) x) →
      call rd Q prm st i = .noMore ∨ ∃ r a s, call rd Q prm st i = .found r a s ∧ r = st.k + 1 + i ∧ Function.Bijective a ∧
        |s - total st.C a| ≤ err n 2000 := by
  intro i
  induction i with
  | zero =>
    intro st hk hC hq
    unfold call findNextBest
    rw [if_neg hk]
    cases hpop : Q.pop st.pq with
    | none => left; rfl
    | some ph =>
      obtain ⟨p, h⟩ := ph
      obtain ⟨hel, -⟩ := Q.pop_some _ p h hpop
      have hp := hq p (by rw [hel]; simp)
      obtain ⟨h', e, hq'⟩ := expand_def (prm := { prm with C := st.C }) hrd hC hbig hn hf hp Q
        ((List.range (partitionMax prm)).drop p.id) h (by
          intro k hk'
          have := mem_parts' hk'
          refine ⟨this.1, lt_of_lt_of_le this.2 ?_⟩
          unfold partitionMax; split <;> omega) (fun x hx => hq x (by rw [hel]; exact Multiset.mem_cons_of_mem hx))
      simp only [e]
      cases hpop' : Q.pop h' with
      | none => left; rfl
      | some yh =>
        obtain ⟨y, h2⟩ := yh
        right
        have hy := hq' y (by rw [(Q.pop_some _ y h2 hpop').1]; simp)
        exact ⟨_, _, _, rfl, rfl, hy.bij, hy.score⟩
  | succ i ih =>
    intro st hk hC hq
    unfold call findNextBest
    rw [if_neg hk]
    cases hpop : Q.pop st.pq with
    | none =>
      left
      have : ∀ i, call rd Q prm st i = .noMore := by
        intro i
        have e : findNextBest rd Q prm st = (.noMore, st) := by simp [findNextBest, hk, hpop]
        induction i with
        | zero => simp [call, e]
        | succ i ih => simp [call, e, ih]
      exact this i
    | some ph =>
      obtain ⟨p, h⟩ := ph
      obtain ⟨hel, -⟩ := Q.pop_some _ p h hpop
      have hp := hq p (by rw [hel]; simp)
      obtain ⟨h', e, hq'⟩ := expand_def (prm := { prm with C := st.C }) hrd hC hbig hn hf hp Q
        ((List.range (partitionMax prm)).drop p.id) h (by
          intro k hk'
          have := mem_parts' hk'
          refine ⟨this.1, lt_of_lt_of_le this.2 ?_⟩
          unfold partitionMax; split <;> omega) (fun x hx => hq x (by rw [hel]; exact Multiset.mem_cons_of_mem hx))
      simp only [e]
      cases hpop' : Q.pop h' with
      | none =>
        simp only
        left
        have : ∀ (st' : St ℚ n Q), st'.k ≠ 0 → Q.pop st'.pq = none → ∀ i, call rd Q prm st' i = .noMore := by
          intro st' hk' hp' i
          have e : findNextBest rd Q prm st' = (.noMore, st') := by simp [findNextBest, hk', hp']
          induction i with
          | zero => simp [call, e]
          | succ i ih => simp [call, e, ih]
        exact this { st with pq := h' } hk hpop' i
      | some yh =>
        simp only
        rcases ih { st with k := st.k + 1, pq := h' } (by simp) hC hq' with h1 | ⟨r, a, s, h1, h2, h3, h4⟩
        · exact Or.inl h1
        · exact Or.inr ⟨r, a, s, h1, by rw [h2]; simp only; omega, h3, h4⟩

/-- The score of the first call. -/
theorem first_err {rd : ℚ → ℚ} (hrd : Nearest rd) (hn : n + 1 ≤ 2 ^ 52) (C : Mat ℚ n) {M : ℚ} (hM0 : 0 ≤ M)
    (hM : ∀ i j, |C i j| ≤ M) (a : Fin n → Fin n) :
    |(List.finRange n).foldl (fun s x => rd (s + C x (a x))) 0 - total C a| ≤ err n M := by
  have h := foldl_err hrd (fun x => C x (a x)) (fun x => hM _ _) hM0 hn (List.finRange n) 0 0 0 (by simp) (by simp) (by simp)
  simp only [List.length_finRange, zero_add] at h
  rw [show ((List.finRange n).map fun x => C x (a x)).sum = total C a from (Fin.sum_univ_def _).symm] at h
  refine le_trans h ?_
  unfold err
  apply mul_le_mul_of_nonneg_right
  · linarith
  · positivity

/-! ### Enumeration without a block -/

/-- Without a block only the columns of the ancestors are forbidden. -/
theorem forbX_forb {nC k : Nat} (hk : k < n) {aP : Fin n → Fin n} (hlen : (freeCols aP k).length = n - k) (hC : n ≤ nC)
    {c : Fin n} (hc : c ∈ freeCols aP k) : ∀ chain : List (Nat × (Fin n → Fin n)),
    forbX nC (freeCols aP k) ⟨k, hk⟩ chain c ↔ c ∈ forb ⟨k, hk⟩ chain := by
  intro chain
  induction chain with
  | nil => simp [forbX, forb]
  | cons e rest ih =>
    obtain ⟨nid, na⟩ := e
    have hidx : ¬ nC ≤ (freeCols aP k).idxOf c := by
      have := List.idxOf_lt_length_iff.2 hc
      omega
    simp only [forbX, forb, List.mem_cons, hidx, and_false, or_false, ih]
    by_cases h : rest ≠ [] ∧ k ≤ nid
    · simp [h]
    · rw [if_neg (by simpa using h)]
      simp only [List.not_mem_nil, or_false]
      constructor
      · rintro (h1 | ⟨h1, -⟩)
        · exact h1
        · exact absurd h1 h
      · exact Or.inl

/-- The permutations of a node have no much better one than that of the node. -/
def Opt (C : Mat ℚ n) (x : Node ℚ n) : Prop := ∀ σ, InSet x.id x.a x.chain σ → total C σ ≤ total C x.a + n * (5 / 10 ^ 12)

theorem child_plain {rd : ℚ → ℚ} (hrd : Nearest rd) {prm : Prm ℚ n} {lo hi : ℚ} (hlo : -1001 ≤ lo) (hhi : hi ≤ 2000)
    (hC : ∀ i j, lo ≤ prm.C i j ∧ prm.C i j ≤ hi) (hsp : n * (hi - lo) + n * (5 / 10 ^ 12) < 10000 + hi) (hnC : n ≤ prm.nC)
    (hbig : prm.big = 10000) (hn : n + 1 ≤ 2 ^ 52) (hf : n * (n + 1) < prm.fuel) {p : Node ℚ n}
    (hp : NodeD prm.C (err n 2000) p) {k : Nat} (hk : p.id ≤ k) (hkn : k < n) :
    (child rd prm p k = .impossible ∧ ∀ σ, ¬ InSet k p.a ((p.id, p.a) :: p.chain) σ) ∨
    ∃ x, child rd prm p k = .node x ∧ NodeD prm.C (err n 2000) x ∧ InSet x.id x.a x.chain x.a ∧ Opt prm.C x ∧
      ∀ σ, InSet x.id x.a x.chain σ ↔ InSet k p.a ((p.id, p.a) :: p.chain) σ := by
  classical
  have hlen := length_freeCols hp.bij hkn.le
  have hm : 0 < n - k := by omega
  have hC' : ∀ i j, -1001 ≤ prm.C i j ∧ prm.C i j ≤ 2000 := fun i j => ⟨hlo.trans (hC i j).1, (hC i j).2.trans hhi⟩
  set F : Fin n → Prop := fun c => c ∈ forb ⟨k, hkn⟩ ((p.id, p.a) :: p.chain) with hF
  have hM : ∀ r c, red prm p hkn hlen r c = if r.val = 0 ∧ F ((freeCols p.a k).get (c.cast hlen.symm)) then -10000
      else prm.C ⟨k + r.val, by omega⟩ ((freeCols p.a k).get (c.cast hlen.symm)) := by
    intro r c
    unfold red
    simp only [forbX_forb hkn hlen hnC (List.get_mem (freeCols p.a k) (c.cast hlen.symm)), hF]
  have hne : ∀ c : Fin (n - k), red prm p hkn hlen ⟨0, hm⟩ c ≠ -10000 ↔ ¬ F ((freeCols p.a k).get (c.cast hlen.symm)) := by
    intro c
    simp only [hM, true_and]
    by_cases h : F ((freeCols p.a k).get (c.cast hlen.symm))
    · rw [if_pos h]
      exact iff_of_false (fun hc => hc rfl) (fun hc => hc h)
    · simp only [h, if_false, not_false_eq_true, iff_true]
      have := (hC' ⟨k + 0, by omega⟩ ((freeCols p.a k).get (c.cast hlen.symm))).1
      intro hcon
      have e : prm.C ⟨k + 0, by omega⟩ ((freeCols p.a k).get (c.cast hlen.symm)) = -10000 := hcon
      rw [e] at this; norm_num at this
  have hset : ∀ τ : Fin (n - k) → Fin (n - k), Function.Bijective τ →
      (InSet k p.a ((p.id, p.a) :: p.chain) (merge p.a hlen τ) ↔ ¬ F ((freeCols p.a k).get ((τ ⟨0, hm⟩).cast hlen.symm))) := by
    intro τ hτ
    have e := merge_add (aP := p.a) (hlen := hlen) (soln := τ) ⟨0, hm⟩
    constructor
    · intro h
      have := h.2.2 hkn
      rw [← e]; exact this
    · intro h
      refine ⟨merge_bij hp.bij hτ, fun i hi => merge_lt hi, fun _ => ?_⟩
      rw [← e] at h; exact h
  rcases child_run hrd hC' hbig hn hf hp hk hkn hlen with ⟨e, hall⟩ | ⟨soln, x, hbij, e, hid, ha, hch, hx, hex, hopt⟩
  · left
    refine ⟨e, fun σ hσ => ?_⟩
    obtain ⟨τ, hτ, rfl⟩ := exists_reduced hlen hσ.1 hσ.2.1
    exact (hne _).2 ((hset τ hτ).1 hσ) (hall _)
  · right
    have hMval : ∀ τ : Fin (n - k) → Fin (n - k), ¬ F ((freeCols p.a k).get ((τ ⟨0, hm⟩).cast hlen.symm)) →
        ∑ r, red prm p hkn hlen r (τ r) = ∑ r : Fin (n - k), prm.C ⟨k + r.val, by omega⟩ ((freeCols p.a k).get ((τ r).cast hlen.symm)) := by
      intro τ hτ
      refine Finset.sum_congr rfl fun r _ => ?_
      simp only [hM]
      rw [if_neg]
      rintro ⟨h0, h1⟩
      have : r = ⟨0, hm⟩ := Fin.ext h0
      subst this; exact hτ h1
    have hlohi : lo ≤ hi := le_trans (hC ⟨k, hkn⟩ ⟨k, hkn⟩).1 (hC _ _).2
    -- the solver avoids the forbidden columns
    have havoid : ¬ F ((freeCols p.a k).get ((soln ⟨0, hm⟩).cast hlen.symm)) := by
      intro hbad
      obtain ⟨c, hc⟩ := hex
      rw [hne] at hc
      -- a permutation of the reduced problem that puts row 0 in column `c`
      let τ : Fin (n - k) → Fin (n - k) := Equiv.swap ⟨0, hm⟩ c
      have hτ : Function.Bijective τ := (Equiv.swap _ _).bijective
      have hτ0 : τ ⟨0, hm⟩ = c := Equiv.swap_apply_left _ _
      have h1 := hopt τ hτ
      rw [hMval τ (by rw [hτ0]; exact hc)] at h1
      have h2 : ((n - k : ℕ) : ℚ) * lo ≤ ∑ r : Fin (n - k), prm.C ⟨k + r.val, by omega⟩ ((freeCols p.a k).get ((τ r).cast hlen.symm)) := by
        have := Finset.card_nsmul_le_sum (Finset.univ : Finset (Fin (n - k)))
          (fun r => prm.C ⟨k + r.val, by omega⟩ ((freeCols p.a k).get ((τ r).cast hlen.symm))) lo (fun r _ => (hC _ _).1)
        simpa using this
      have h3 : ∑ r, red prm p hkn hlen r (soln r) ≤ -10000 + ((n - k : ℕ) - 1 : ℚ) * hi := by
        rw [← Finset.add_sum_erase _ _ (Finset.mem_univ (⟨0, hm⟩ : Fin (n - k)))]
        have e0 : red prm p hkn hlen ⟨0, hm⟩ (soln ⟨0, hm⟩) = -10000 := by
          by_contra hcon
          exact (hne _).1 hcon hbad
        rw [e0]
        have := Finset.sum_le_card_nsmul ((Finset.univ : Finset (Fin (n - k))).erase ⟨0, hm⟩)
          (fun r => red prm p hkn hlen r (soln r)) hi (fun r hr => by
            have hr0 : r ≠ ⟨0, hm⟩ := Finset.ne_of_mem_erase hr
            simp only [hM]
            rw [if_neg (fun h => hr0 (Fin.ext h.1))]
            exact (hC _ _).2)
        rw [Finset.card_erase_of_mem (Finset.mem_univ _)] at this
        simp only [Finset.card_univ, Fintype.card_fin, nsmul_eq_mul] at this
        rw [Nat.cast_sub (by omega), Nat.cast_one] at this
        linarith
      have h4 : ((n - k : ℕ) : ℚ) ≤ n := by exact_mod_cast Nat.sub_le n k
      have h5 : ((n - k : ℕ) : ℚ) * (hi - lo) ≤ n * (hi - lo) := mul_le_mul_of_nonneg_right h4 (by linarith)
      nlinarith
    have hin := (hset soln hbij).2 havoid
    have hagree : ∀ i : Fin n, i.val < k → p.a i = x.a i := fun i hi => by rw [ha]; exact (merge_lt hi).symm
    have hiff : ∀ σ, InSet x.id x.a x.chain σ ↔ InSet k p.a ((p.id, p.a) :: p.chain) σ := by
      intro σ
      rw [hid, hch]
      exact (inSet_congr hagree).symm
    refine ⟨x, e, hx, ?_, ?_, hiff⟩
    · rw [hiff, ha]; exact hin
    · intro σ hσ
      rw [hiff] at hσ
      obtain ⟨τ, hτ, rfl⟩ := exists_reduced hlen hσ.1 hσ.2.1
      have hτF := (hset τ hτ).1 hσ
      have h1 := hopt τ hτ
      rw [hMval τ hτF, hMval soln havoid] at h1
      rw [ha, total_merge _ hkn.le, total_merge _ hkn.le]
      linarith

theorem call_noMore (rd : ℚ → ℚ) (Q : PQ ℚ n) (prm : Prm ℚ n) (st : St ℚ n Q) (hk : st.k ≠ 0) (h : Q.pop st.pq = none)
    (i : Nat) : call rd Q prm st i = .noMore := by
  have e : findNextBest rd Q prm st = (.noMore, st) := by simp [findNextBest, hk, h]
  induction i with
  | zero => simp [call, e]
  | succ i ih => simp [call, e, ih]

/-- The same node for a matrix of zeros, to use what holds for sets of permutations whatever the scores. -/
theorem fake {prm : Prm ℚ n} {δ : ℚ} {p : Node ℚ n} (hp : NodeD prm.C δ p) (hm : InSet p.id p.a p.chain p.a) :
    NodeOK ({ prm with C := fun _ _ => 0 } : Prm ℚ n) { p with s := 0 } := by
  refine ⟨hp.bij, by simp [total], hp.chain, hm, fun σ _ => ?_⟩
  have := Murty.tolE_pos (K := ℚ)
  simp only [Finset.sum_const_zero, total]
  positivity

open Classical in
theorem expand_plain {rd : ℚ → ℚ} (hrd : Nearest rd) {prm : Prm ℚ n} {lo hi : ℚ} (hlo : -1001 ≤ lo) (hhi : hi ≤ 2000)
    (hC : ∀ i j, lo ≤ prm.C i j ∧ prm.C i j ≤ hi) (hsp : n * (hi - lo) + n * (5 / 10 ^ 12) < 10000 + hi) (hnC : n ≤ prm.nC)
    (hbig : prm.big = 10000) (hn : n + 1 ≤ 2 ^ 52) (hf : n * (n + 1) < prm.fuel) {p : Node ℚ n}
    (hp : NodeD prm.C (err n 2000) p) (Q : PQ ℚ n) : ∀ (ks : List Nat) (h : Q.H), (∀ k ∈ ks, p.id ≤ k ∧ k < n) →
      ∃ h', expand rd Q prm p ks h = some h' ∧ ∃ cs : Multiset (Node ℚ n), Q.elems h' = cs + Q.elems h ∧
        (∀ x ∈ cs, NodeD prm.C (err n 2000) x ∧ InSet x.id x.a x.chain x.a ∧ Opt prm.C x) ∧
        ∀ σ, cs.countP (InNode σ) = ks.countP (fun k => decide (InSet k p.a ((p.id, p.a) :: p.chain) σ))
  | [], h, _ => ⟨h, rfl, 0, by simp, by simp, by simp⟩
  | k :: ks, h, hks => by
    have hk := hks k (by simp)
    rcases child_plain hrd hlo hhi hC hsp hnC hbig hn hf hp hk.1 hk.2 with ⟨e, hno⟩ | ⟨x, e, hx, hm, ho, hin⟩
    · obtain ⟨h', e', cs, h1, h2, h3⟩ := expand_plain hrd hlo hhi hC hsp hnC hbig hn hf hp Q ks h (fun k' hk' => hks k' (by simp [hk']))
      refine ⟨h', ?_, cs, h1, h2, fun σ => ?_⟩
      · simp only [expand, e, e']
      · rw [h3, List.countP_cons_of_neg]
        simpa using hno σ
    · obtain ⟨h', e', cs, h1, h2, h3⟩ := expand_plain hrd hlo hhi hC hsp hnC hbig hn hf hp Q ks (Q.push h x)
        (fun k' hk' => hks k' (by simp [hk']))
      refine ⟨h', ?_, x ::ₘ cs, ?_, ?_, fun σ => ?_⟩
      · simp only [expand, e, e']
      · rw [h1, Q.elems_push]; simp
      · intro y hy
        rcases Multiset.mem_cons.1 hy with rfl | hy
        · exact ⟨hx, hm, ho⟩
        · exact h2 y hy
      · rw [Multiset.countP_cons, h3, List.countP_cons]
        congr 1
        have := hin σ
        by_cases hs : InSet k p.a ((p.id, p.a) :: p.chain) σ
        · simp [hs, InNode, this.2 hs]
        · have hs' : ¬ InNode σ x := fun hc => hs (this.1 hc)
          simp [hs, hs']

open Classical in
structure Inv (C : Mat ℚ n) (E : List (Fin n → Fin n)) (m : Multiset (Node ℚ n)) : Prop where
  ok : ∀ x ∈ m, NodeD C (err n 2000) x ∧ InSet x.id x.a x.chain x.a
  cover : ∀ σ, Function.Bijective σ → E.count σ + m.countP (InNode σ) = 1

open Classical in
theorem Inv.mem_E {C : Mat ℚ n} {E : List (Fin n → Fin n)} {m : Multiset (Node ℚ n)} (h : Inv C E m)
    {x} (hx : x ∈ m) : x.a ∉ E := by
  intro hE
  have h1 := h.cover x.a (h.ok x hx).1.bij
  have h2 : 0 < E.count x.a := List.count_pos_iff.2 hE
  have h3 : 0 < m.countP (InNode x.a) := Multiset.countP_pos.2 ⟨x, hx, (h.ok x hx).2⟩
  omega

open Classical in
theorem Inv.find {C : Mat ℚ n} {E : List (Fin n → Fin n)} {m : Multiset (Node ℚ n)} (h : Inv C E m)
    {σ} (hσ : Function.Bijective σ) (hE : σ ∉ E) : ∃ x ∈ m, InNode σ x := by
  have h1 := h.cover σ hσ
  rw [List.count_eq_zero.2 hE] at h1
  exact Multiset.countP_pos.1 (by omega)

/-- Nothing later is better by more than the tolerance. -/
def NoBetter (C : Mat ℚ n) (σ τ : Fin n → Fin n) : Prop := total C τ ≤ total C σ + (n * (5 / 10 ^ 12) + 2 * err n 2000)

/-- What the `i`-th call returns, given the list of what is still to come. -/
def Gives (C : Mat ℚ n) (k : Nat) (L : List (Fin n → Fin n)) (r : Ret ℚ n) : Prop :=
  match L.head? with
  | some a => ∃ s, r = .found k a s ∧ |s - total C a| ≤ err n 2000
  | none => r = .noMore

open Classical in
theorem run_from {rd : ℚ → ℚ} (hrd : Nearest rd) {prm : Prm ℚ n} {lo hi : ℚ} (hlo : -1001 ≤ lo) (hhi : hi ≤ 2000)
    (hC : ∀ i j, lo ≤ prm.C i j ∧ prm.C i j ≤ hi) (hsp : n * (hi - lo) + n * (5 / 10 ^ 12) < 10000 + hi) (hR : prm.nR = n)
    (hnC : n ≤ prm.nC) (hbig : prm.big = 10000) (hn : n + 1 ≤ 2 ^ 52) (hf : n * (n + 1) < prm.fuel) (Q : PQ ℚ n) :
    ∀ (N : Nat) (E : List (Fin n → Fin n)) (st : St ℚ n Q), st.k ≠ 0 → st.C = prm.C → Inv prm.C E (Q.elems st.pq) →
      (∀ p h, Q.pop st.pq = some (p, h) → ∀ x ∈ Q.elems h, Opt prm.C x) →
      (Finset.univ.filter fun σ : Fin n → Fin n => Function.Bijective σ ∧ σ ∉ E).card ≤ N →
      ∃ L : List (Fin n → Fin n), L.Nodup ∧ (∀ σ, σ ∈ L ↔ Function.Bijective σ ∧ σ ∉ E) ∧
        L.tail.Pairwise (NoBetter prm.C) ∧ ((∀ x ∈ Q.elems st.pq, Opt prm.C x) → L.Pairwise (NoBetter prm.C)) ∧
        (∀ x h', Q.pop st.pq = some (x, h') → L.head? = some x.a) ∧
        ∀ i, Gives prm.C (st.k + 1 + i) (L.drop (i + 1)) (call rd Q prm st i) := by
  intro N
  induction N with
  | zero =>
    intro E st hk hst hinv _ hcard
    have hall : ∀ σ : Fin n → Fin n, Function.Bijective σ → σ ∈ E := by
      intro σ hσ
      by_contra hE
      have := Finset.card_eq_zero.1 (Nat.le_zero.1 hcard)
      have h2 : σ ∈ (Finset.univ.filter fun σ : Fin n → Fin n => Function.Bijective σ ∧ σ ∉ E) :=
        Finset.mem_filter.2 ⟨Finset.mem_univ _, hσ, hE⟩
      rw [this] at h2; simp at h2
    have hnone : Q.pop st.pq = none := by
      cases e : Q.pop st.pq with
      | none => rfl
      | some xh =>
        exfalso
        have := (Q.pop_some _ xh.1 xh.2 e).1
        have hx : xh.1 ∈ Q.elems st.pq := by rw [this]; simp
        exact hinv.mem_E hx (hall _ (hinv.ok _ hx).1.bij)
    refine ⟨[], by simp, fun σ => ?_, by simp, by simp, ?_, fun i => ?_⟩
    · simp only [List.not_mem_nil, false_iff, not_and, not_not]; exact hall σ
    · intro x h' e; rw [hnone] at e; cases e
    · rw [call_noMore rd Q prm st hk hnone]; simp [Gives]
  | succ N ih =>
    intro E st hk hst hinv hopt hcard
    cases hpop : Q.pop st.pq with
    | none =>
      have h0 := Q.pop_none _ hpop
      refine ⟨[], by simp, fun σ => ?_, by simp, by simp, by simp, fun i => ?_⟩
      · simp only [List.not_mem_nil, false_iff, not_and, not_not]
        intro hσ
        by_contra hE
        obtain ⟨x, hx, -⟩ := hinv.find hσ hE
        rw [h0] at hx; simp at hx
      · rw [call_noMore rd Q prm st hk hpop]; simp [Gives]
    | some xh =>
      obtain ⟨p, h⟩ := xh
      obtain ⟨hel, hmax⟩ := Q.pop_some _ p h hpop
      have hpm : p ∈ Q.elems st.pq := by rw [hel]; simp
      have hp := (hinv.ok p hpm).1
      have hpE := hinv.mem_E hpm
      have hmem : ∀ k, k ∈ (List.range (n - 1)).drop p.id → p.id ≤ k ∧ k < n := by
        intro k hk'
        have := mem_parts' hk'
        omega
      obtain ⟨h', hexp, cs, hel', hcs, hcnt⟩ :=
        expand_plain hrd hlo hhi hC hsp hnC hbig hn hf hp Q ((List.range (n - 1)).drop p.id) h hmem
      have hinv' : Inv prm.C (p.a :: E) (Q.elems h') := by
        constructor
        · intro x hx
          rw [hel', Multiset.mem_add] at hx
          rcases hx with hx | hx
          · exact ⟨(hcs x hx).1, (hcs x hx).2.1⟩
          · exact hinv.ok x (by rw [hel]; exact Multiset.mem_cons_of_mem hx)
        · intro σ hσ
          have h1 := hinv.cover σ hσ
          rw [hel, Multiset.countP_cons] at h1
          have h2 := split_node (fake hp (hinv.ok p hpm).2) σ hσ
          rw [hel', Multiset.countP_add, hcnt, List.count_cons]
          have h3 : (if InNode σ p then 1 else 0) = (if InSet p.id p.a p.chain σ then 1 else 0) := rfl
          have h4 : (if (p.a == σ) = true then 1 else 0) = (if σ = p.a then 1 else 0) := by
            simp only [beq_iff_eq]
            by_cases e : σ = p.a
            · simp [e]
            · rw [if_neg e, if_neg (fun e' => e e'.symm)]
          rw [h3] at h1
          rw [h4]
          simp only at h2
          omega
      have hopt' : ∀ x ∈ Q.elems h', Opt prm.C x := by
        intro x hx
        rw [hel', Multiset.mem_add] at hx
        rcases hx with hx | hx
        · exact (hcs x hx).2.2
        · exact hopt p h hpop x hx
      have hcard' : (Finset.univ.filter fun σ : Fin n → Fin n => Function.Bijective σ ∧ σ ∉ p.a :: E).card ≤ N := by
        have hlt : (Finset.univ.filter fun σ : Fin n → Fin n => Function.Bijective σ ∧ σ ∉ p.a :: E).card <
            (Finset.univ.filter fun σ : Fin n → Fin n => Function.Bijective σ ∧ σ ∉ E).card := by
          apply Finset.card_lt_card
          rw [Finset.ssubset_iff_of_subset]
          · exact ⟨p.a, Finset.mem_filter.2 ⟨Finset.mem_univ _, hp.bij, hpE⟩, by simp⟩
          · intro σ
            simp only [Finset.mem_filter, Finset.mem_univ, true_and, List.mem_cons, not_or]
            rintro ⟨a, -, b⟩; exact ⟨a, b⟩
        omega
      have hpm' : partitionMax prm = n - 1 := by simp [partitionMax, hR]
      have hprm : ({ prm with C := st.C } : Prm ℚ n) = prm := by rw [hst]
      have build : ∀ st' : St ℚ n Q, st'.k ≠ 0 → st'.C = prm.C → st'.pq = h' →
          (findNextBest rd Q prm st).2 = st' → (∀ x h'', Q.pop h' = some (x, h'') →
            st'.k = st.k + 1 ∧ (findNextBest rd Q prm st).1 = .found (st.k + 1) x.a x.s) →
          (Q.pop h' = none → (findNextBest rd Q prm st).1 = .noMore) →
          ∃ L : List (Fin n → Fin n), L.Nodup ∧ (∀ σ, σ ∈ L ↔ Function.Bijective σ ∧ σ ∉ E) ∧
            L.tail.Pairwise (NoBetter prm.C) ∧ ((∀ x ∈ Q.elems st.pq, Opt prm.C x) → L.Pairwise (NoBetter prm.C)) ∧
            (∀ x h', some (p, h) = some (x, h') → L.head? = some x.a) ∧
            ∀ i, Gives prm.C (st.k + 1 + i) (L.drop (i + 1)) (call rd Q prm st i) := by
        intro st' hk' hC' hq hst' hs hno
        obtain ⟨L, l1, l2, -, l3, l4, l5⟩ := ih (p.a :: E) st' hk' hC' (by rw [hq]; exact hinv') (by
          intro y h'' e x hx
          rw [hq] at e
          exact hopt' x (by rw [(Q.pop_some _ y h'' e).1]; exact Multiset.mem_cons_of_mem hx)) hcard'
        have l3' := l3 (by rw [hq]; exact hopt')
        refine ⟨p.a :: L, ?_, ?_, l3', ?_, ?_, ?_⟩
        · refine List.nodup_cons.2 ⟨fun hm => ?_, l1⟩
          have := ((l2 _).1 hm).2
          simp at this
        · intro σ
          rw [List.mem_cons, l2]
          simp only [List.mem_cons, not_or]
          constructor
          · rintro (rfl | ⟨a, -, b⟩)
            · exact ⟨hp.bij, hpE⟩
            · exact ⟨a, b⟩
          · rintro ⟨a, b⟩
            by_cases e : σ = p.a
            · exact Or.inl e
            · exact Or.inr ⟨a, e, b⟩
        · intro hall
          refine List.pairwise_cons.2 ⟨fun σ hm => ?_, l3'⟩
          have hσ := (l2 _).1 hm
          obtain ⟨y, hy, hin⟩ := hinv.find hσ.1 (fun hc => hσ.2 (List.mem_cons_of_mem _ hc))
          have h1 := hall y hy σ hin
          have h2 := hmax y hy
          have h3 := abs_le.1 hp.score
          have h4 := abs_le.1 (hinv.ok y hy).1.score
          unfold NoBetter
          linarith [h3.1, h3.2, h4.1, h4.2]
        · intro x h'' e
          simp only [Option.some.injEq, Prod.mk.injEq] at e
          simp [e.1]
        · intro i
          rw [List.drop_succ_cons]
          cases hpop' : Q.pop h' with
          | none =>
            have hnil : L = [] := by
              rw [List.eq_nil_iff_forall_not_mem]
              intro σ hm
              have hσ := (l2 _).1 hm
              obtain ⟨x, hx, -⟩ := hinv'.find hσ.1 hσ.2
              rw [Q.pop_none _ hpop'] at hx; simp at hx
            subst hnil
            simp only [List.drop_nil, Gives, List.head?_nil]
            cases i with
            | zero => simp only [call]; exact hno hpop'
            | succ i =>
              simp only [call, hst']
              exact call_noMore rd Q prm st' hk' (by rw [hq]; exact hpop') i
          | some yh =>
            obtain ⟨hkk, hret⟩ := hs yh.1 yh.2 hpop'
            have hhead := l4 yh.1 yh.2 (by rw [hq]; exact hpop')
            cases i with
            | zero =>
              simp only [call, hret, List.drop_zero, Gives, hhead]
              have hy : yh.1 ∈ Q.elems h' := by rw [(Q.pop_some _ yh.1 yh.2 hpop').1]; simp
              exact ⟨_, rfl, (hinv'.ok _ hy).1.score⟩
            | succ i =>
              have := l5 i
              rw [hkk] at this
              simp only [call, hst']
              rw [show st.k + 1 + (i + 1) = st.k + 1 + 1 + i by omega]
              exact this
      have hfn : findNextBest rd Q prm st = (match Q.pop h' with
        | none => (.noMore, { st with pq := h' })
        | some (x, _) => (.found (st.k + 1) x.a x.s, { st with k := st.k + 1, pq := h' })) := by
        unfold findNextBest
        rw [if_neg hk, hpop]
        simp only [hpm', hprm, hexp]
        cases Q.pop h' <;> rfl
      cases hpop' : Q.pop h' with
      | none =>
        rw [hpop'] at hfn
        exact build { st with pq := h' } hk hst rfl (by rw [hfn]) (by intro x h'' e; rw [hpop'] at e; cases e)
          (fun _ => by rw [hfn])
      | some yh =>
        rw [hpop'] at hfn
        refine build { st with k := st.k + 1, pq := h' } (by simp) hst rfl (by rw [hfn]) ?_ ?_
        · intro x h'' e
          rw [hpop'] at e
          cases e
          exact ⟨rfl, by rw [hfn]⟩
        · intro e; rw [hpop'] at e; cases e

end MurtyDbl
end RFS
