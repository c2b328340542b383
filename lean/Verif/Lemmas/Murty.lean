import Verif.Model.Murty
import Verif.Lemmas.Hungarian
import Mathlib.Data.Fintype.EquivFin
import Mathlib.Data.Fintype.Pi
import Mathlib.Data.List.Nodup
import Mathlib.Logic.Equiv.Basic
import Mathlib.Algebra.Order.BigOperators.Group.Finset
import Mathlib.Tactic.Linarith
import Mathlib.Tactic.Ring
import Mathlib.Tactic.Positivity

set_option linter.unusedSectionVars false

namespace RFS
namespace Murty
open Hungarian (Mat tolE)

variable {K : Type*} [Field K] [LinearOrder K] [IsStrictOrderedRing K] {n : Nat}

/-- Columns forbidden in row `id`, given the ancestors of a node. -/
def forb (id : Fin n) : List (Nat × (Fin n → Fin n)) → List (Fin n)
  | [] => []
  | (nid, na) :: rest => na id :: if rest ≠ [] ∧ id.val ≤ nid then forb id rest else []

def ChainOK (k : Nat) (aP : Fin n → Fin n) : List (Nat × (Fin n → Fin n)) → Prop
  | [] => True
  | (nid, na) :: rest => nid ≤ k ∧ (∀ i : Fin n, i.val < k → na i = aP i) ∧ Function.Bijective na ∧
      (rest ≠ [] ∧ k ≤ nid → ChainOK k aP rest)

/-- The permutations a node stands for. -/
def InSet (k : Nat) (aP : Fin n → Fin n) (chain : List (Nat × (Fin n → Fin n))) (σ : Fin n → Fin n) : Prop :=
  Function.Bijective σ ∧ (∀ i : Fin n, i.val < k → σ i = aP i) ∧
    ∀ h : k < n, σ ⟨k, h⟩ ∉ forb ⟨k, h⟩ chain

def total (C : Mat K n) (σ : Fin n → Fin n) : K := ∑ i, C i (σ i)

theorem mem_freeCols {aP : Fin n → Fin n} {k : Nat} {j : Fin n} :
    j ∈ freeCols aP k ↔ ∀ i : Fin n, i.val < k → aP i ≠ j := by
  simp [freeCols]

theorem nodup_freeCols (aP : Fin n → Fin n) (k : Nat) : (freeCols aP k).Nodup :=
  (List.nodup_finRange n).filter _

theorem length_freeCols {aP : Fin n → Fin n} (ha : Function.Bijective aP) {k : Nat} (hk : k ≤ n) :
    (freeCols aP k).length = n - k := by
  have h1 : (freeCols aP k).toFinset = (Finset.univ.filter fun i : Fin n => ¬ i.val < k).image aP := by
    ext j
    simp only [List.mem_toFinset, mem_freeCols, Finset.mem_image, Finset.mem_filter, Finset.mem_univ, true_and]
    constructor
    · intro h
      obtain ⟨i, rfl⟩ := ha.2 j
      exact ⟨i, fun hi => h i hi rfl, rfl⟩
    · rintro ⟨i, hi, rfl⟩ i' hi' e
      have := ha.1 e
      subst this; exact hi hi'
  have h2 : (freeCols aP k).toFinset.card = (freeCols aP k).length :=
    List.toFinset_card_of_nodup (nodup_freeCols aP k)
  rw [← h2, h1, Finset.card_image_of_injective _ ha.1]
  have h3 : (Finset.univ.filter fun i : Fin n => ¬ i.val < k).card = n - k := by
    have e : (Finset.univ.filter fun i : Fin n => i.val < k).card = k := by
      have : (Finset.univ.filter fun i : Fin n => i.val < k) =
          Finset.univ.map (Fin.castLEEmb hk) := by
        ext i
        simp only [Finset.mem_filter, Finset.mem_univ, true_and, Finset.mem_map, Fin.castLEEmb_apply]
        constructor
        · intro h; exact ⟨⟨i.val, h⟩, rfl⟩
        · rintro ⟨j, rfl⟩; exact j.2
      rw [this, Finset.card_map]; simp
    have := Finset.card_filter_add_card_filter_not (s := (Finset.univ : Finset (Fin n))) (fun i : Fin n => i.val < k)
    rw [e] at this
    simp at this
    have h4 : (Finset.univ.filter fun i : Fin n => ¬ i.val < k).card =
      (Finset.univ.filter fun i : Fin n => k ≤ i.val).card := by congr 1; ext; simp
    omega
  exact h3

theorem forbid_spec {prm : Prm K n} (hC : n ≤ prm.nC) {k : Nat} (hk : k < n) {aP : Fin n → Fin n}
    (hlen : (freeCols aP k).length = n - k) (ha : Function.Bijective aP) :
    ∀ (chain : List (Nat × (Fin n → Fin n))) (M : Mat K (n - k)), chain ≠ [] → ChainOK k aP chain →
      forbid prm k k (freeCols aP k) k chain M = some (fun r c =>
        if r.val = 0 ∧ (freeCols aP k).get (c.cast hlen.symm) ∈ forb ⟨k, hk⟩ chain then -prm.big else M r c)
  | [], _, h, _ => absurd rfl h
  | (nid, na) :: rest, M, _, hc => by
    obtain ⟨hnid, hagree, hna, hrest⟩ := hc
    have hmem : na ⟨k, hk⟩ ∈ freeCols aP k := by
      rw [mem_freeCols]
      intro i hi e
      rw [← hagree i hi] at e
      have := hna.1 e
      rw [this] at hi; simp at hi
    have hidx : (freeCols aP k).idxOf (na ⟨k, hk⟩) < n - k := by
      rw [← hlen]; exact List.idxOf_lt_length_iff.2 hmem
    have hget : ∀ c : Fin (n - k), (freeCols aP k).get (c.cast hlen.symm) = na ⟨k, hk⟩ ↔
        c = ⟨(freeCols aP k).idxOf (na ⟨k, hk⟩), hidx⟩ := by
      intro c
      constructor
      · intro e
        apply Fin.ext
        simp only
        rw [← e, List.get_eq_getElem, (nodup_freeCols aP k).idxOf_getElem]
        rfl
      · rintro rfl
        simp
    simp only [forbid, hk, dif_pos]
    rw [dif_pos ⟨le_rfl, by omega, hidx, hmem⟩,
      if_neg (show ¬ prm.nC ≤ (freeCols aP k).idxOf (na ⟨k, hk⟩) by omega)]
    by_cases h : rest ≠ [] ∧ k ≤ nid
    · rw [if_pos h]
      have : nid = k := le_antisymm hnid h.2
      subst this
      rw [forbid_spec hC hk hlen ha rest _ h.1 (hrest h)]
      congr 1
      have hz : nid - nid < n - nid := by omega
      funext r c
      simp only [forb, h, ne_eq, not_false_eq_true, and_self, le_refl, if_true, List.mem_cons, hget]
      by_cases hr : r.val = 0
      · have hr' : r = ⟨nid - nid, hz⟩ := Fin.ext (by simp [hr])
        by_cases h1 : (freeCols aP nid).get (c.cast hlen.symm) ∈ forb ⟨nid, hk⟩ rest
        · rw [if_pos ⟨hr, h1⟩, if_pos ⟨hr, Or.inr h1⟩]
        · rw [if_neg (by tauto)]
          subst hr'
          rw [Function.update_self]
          by_cases h2 : c = ⟨(freeCols aP nid).idxOf (na ⟨nid, hk⟩), hidx⟩
          · subst h2; simp
          · rw [Function.update_of_ne h2, if_neg (by tauto)]
      · have hr' : r ≠ ⟨nid - nid, by omega⟩ := fun e => hr (by rw [e]; simp)
        rw [Function.update_of_ne hr', if_neg (by tauto), if_neg (by tauto)]
    · rw [if_neg h]
      congr 1
      have hz : k - k < n - k := by omega
      funext r c
      simp only [forb, h, if_false, List.mem_singleton, hget]
      by_cases hr : r.val = 0
      · have hr' : r = ⟨k - k, hz⟩ := Fin.ext (by simp [hr])
        subst hr'
        rw [Function.update_self]
        by_cases h2 : c = ⟨(freeCols aP k).idxOf (na ⟨k, hk⟩), hidx⟩
        · subst h2; simp
        · rw [Function.update_of_ne h2, if_neg (by tauto)]
      · have hr' : r ≠ ⟨k - k, by omega⟩ := fun e => hr (by rw [e]; simp)
        rw [Function.update_of_ne hr', if_neg (by tauto)]

/-- Splitting a sum over the rows at row `k`. -/
theorem sum_split {k : Nat} (hk : k ≤ n) (f : Fin n → K) :
    ∑ i, f i = (∑ r : Fin (n - k), f ⟨k + r.val, by omega⟩) + ∑ i : Fin n, if i.val < k then f i else 0 := by
  have h1 : ∑ i, f i = (∑ i : Fin n, if i.val < k then 0 else f i) + ∑ i : Fin n, if i.val < k then f i else 0 := by
    rw [← Finset.sum_add_distrib]
    refine Finset.sum_congr rfl fun i _ => ?_
    split <;> simp
  rw [h1]
  congr 1
  have h2 : (∑ i : Fin n, if i.val < k then 0 else f i) = ∑ i : Fin n with ¬ i.val < k, f i := by
    rw [Finset.sum_filter]
    exact Finset.sum_congr rfl fun i _ => by split <;> simp_all
  rw [h2]
  symm
  refine Finset.sum_bij (fun r _ => (⟨k + r.val, by omega⟩ : Fin n)) ?_ ?_ ?_ ?_
  · intro r _; simp
  · intro a _ b _ e
    apply Fin.ext
    have := congrArg Fin.val e
    simp only at this; omega
  · intro b hb
    simp only [Finset.mem_filter, Finset.mem_univ, true_and, not_lt] at hb
    exact ⟨⟨b.val - k, by omega⟩, Finset.mem_univ _, Fin.ext (by simp only; omega)⟩
  · intro a _; rfl

/-- The assignment put together from the fixed rows and a solution of the reduced problem. -/
def merge {k : Nat} (aP : Fin n → Fin n) (hlen : (freeCols aP k).length = n - k) (soln : Fin (n - k) → Fin (n - k)) :
    Fin n → Fin n := fun i =>
  if _h : i.val < k then aP i else (freeCols aP k).get ((soln ⟨i.val - k, by omega⟩).cast hlen.symm)

theorem merge_lt {k : Nat} {aP : Fin n → Fin n} {hlen : (freeCols aP k).length = n - k} {soln} {i : Fin n}
    (hi : i.val < k) : merge aP hlen soln i = aP i := by simp [merge, hi]

theorem merge_add {k : Nat} {aP : Fin n → Fin n} {hlen : (freeCols aP k).length = n - k} {soln} (r : Fin (n - k)) :
    merge aP hlen soln ⟨k + r.val, by omega⟩ = (freeCols aP k).get ((soln r).cast hlen.symm) := by
  simp [merge]

theorem merge_bij {k : Nat} {aP : Fin n → Fin n} (ha : Function.Bijective aP)
    {hlen : (freeCols aP k).length = n - k} {soln : Fin (n - k) → Fin (n - k)} (hs : Function.Bijective soln) :
    Function.Bijective (merge aP hlen soln) := by
  rw [← Finite.injective_iff_bijective]
  intro i j e
  by_cases hi : i.val < k <;> by_cases hj : j.val < k
  · rw [merge_lt hi, merge_lt hj] at e; exact ha.1 e
  · exfalso
    rw [merge_lt hi] at e
    have : merge aP hlen soln j ∈ freeCols aP k := by
      simp only [merge, hj, dif_neg, not_false_eq_true]; exact List.get_mem _ _
    rw [mem_freeCols] at this
    exact this i hi e
  · exfalso
    rw [merge_lt hj] at e
    have : merge aP hlen soln i ∈ freeCols aP k := by
      simp only [merge, hi, dif_neg, not_false_eq_true]; exact List.get_mem _ _
    rw [mem_freeCols] at this
    exact this j hj e.symm
  · simp only [merge, hi, hj, dif_neg, not_false_eq_true] at e
    have := (List.nodup_iff_injective_get.1 (nodup_freeCols aP k)) e
    have := hs.1 (Fin.cast_injective _ this)
    apply Fin.ext
    have := congrArg Fin.val this
    simp only at this; omega

theorem exists_reduced {k : Nat} {aP : Fin n → Fin n}
    (hlen : (freeCols aP k).length = n - k) {σ : Fin n → Fin n} (hσ : Function.Bijective σ)
    (hag : ∀ i : Fin n, i.val < k → σ i = aP i) :
    ∃ τ : Fin (n - k) → Fin (n - k), Function.Bijective τ ∧ merge aP hlen τ = σ := by
  have hmem : ∀ r : Fin (n - k), σ ⟨k + r.val, by omega⟩ ∈ freeCols aP k := by
    intro r
    rw [mem_freeCols]
    intro i hi e
    rw [← hag i hi] at e
    have := congrArg Fin.val (hσ.1 e)
    simp only at this; omega
  have h1 : ∀ r : Fin (n - k), ∃ c : Fin (n - k), (freeCols aP k).get (c.cast hlen.symm) = σ ⟨k + r.val, by omega⟩ := by
    intro r
    obtain ⟨c, hc⟩ := List.get_of_mem (hmem r)
    exact ⟨c.cast hlen, by simpa using hc⟩
  choose τ hτ using h1
  refine ⟨τ, ?_, ?_⟩
  · rw [← Finite.injective_iff_bijective]
    intro a b e
    have h2 := hτ a
    rw [e, hτ b] at h2
    have := congrArg Fin.val (hσ.1 h2)
    simp only at this
    apply Fin.ext; omega
  · funext i
    by_cases hi : i.val < k
    · rw [merge_lt hi, hag i hi]
    · have := merge_add (hlen := hlen) (soln := τ) (aP := aP) ⟨i.val - k, by omega⟩
      simp only [hτ] at this
      have e : (⟨k + (i.val - k), by omega⟩ : Fin n) = i := Fin.ext (by simp only; omega)
      rw [e] at this
      exact this

theorem total_merge (C : Mat K n) {k : Nat} (hk : k ≤ n) {aP : Fin n → Fin n}
    (hlen : (freeCols aP k).length = n - k) (soln : Fin (n - k) → Fin (n - k)) :
    total C (merge aP hlen soln) = (∑ r : Fin (n - k), C ⟨k + r.val, by omega⟩ ((freeCols aP k).get ((soln r).cast hlen.symm)))
      + ∑ i : Fin n, if i.val < k then C i (aP i) else 0 := by
  unfold total
  rw [sum_split hk]
  congr 1
  · exact Finset.sum_congr rfl fun r _ => by rw [merge_add]
  · refine Finset.sum_congr rfl fun i _ => ?_
    split
    · rename_i h; rw [merge_lt h]
    · rfl

/-- The bounds under which `-bigNumber_` acts as a prohibition. -/
structure Bounds (prm : Prm K n) (lo hi : K) : Prop where
  ge : ∀ i j, lo ≤ prm.C i j
  le : ∀ i j, prm.C i j ≤ hi
  big : n * (hi - lo) + n * tolE < prm.big + hi

structure NodeOK (prm : Prm K n) (x : Node K n) : Prop where
  bij : Function.Bijective x.a
  score : x.s = total prm.C x.a
  chain : ChainOK x.id x.a x.chain
  mem : InSet x.id x.a x.chain x.a
  opt : ∀ σ, InSet x.id x.a x.chain σ → total prm.C σ ≤ x.s + n * tolE

theorem tolE_pos : (0 : K) < tolE := by unfold tolE; positivity

theorem chainOK_congr {k : Nat} {aP aQ : Fin n → Fin n} (h : ∀ i : Fin n, i.val < k → aP i = aQ i) :
    ∀ {chain}, ChainOK k aP chain → ChainOK k aQ chain
  | [], _ => trivial
  | (_, _) :: _, hc => ⟨hc.1, fun i hi => (hc.2.1 i hi).trans (h i hi), hc.2.2.1,
      fun h' => chainOK_congr h (hc.2.2.2 h')⟩

theorem inSet_congr {k : Nat} {aP aQ : Fin n → Fin n} (h : ∀ i : Fin n, i.val < k → aP i = aQ i)
    {chain} {σ : Fin n → Fin n} : InSet k aP chain σ ↔ InSet k aQ chain σ := by
  unfold InSet
  refine and_congr_right fun _ => and_congr_left fun _ => ?_
  exact forall_congr' fun i => forall_congr' fun hi => by rw [h i hi]

theorem child_chainOK {prm : Prm K n} {p : Node K n} (hp : NodeOK prm p) {k : Nat} (hk : p.id ≤ k) :
    ChainOK k p.a ((p.id, p.a) :: p.chain) := by
  refine ⟨hk, fun _ _ => rfl, hp.bij, fun h => ?_⟩
  have : p.id = k := le_antisymm hk h.2
  rw [← this]; exact hp.chain

theorem child_spec {prm : Prm K n} {lo hi : K} (hb : Bounds prm lo hi) (hC : n ≤ prm.nC)
    (hf : n * (n + 1) < prm.fuel) {p : Node K n} (hp : NodeOK prm p) {k : Nat} (hk : p.id ≤ k) (hkn : k < n) :
    (child prm p k = .impossible ∧ ∀ σ, ¬ InSet k p.a ((p.id, p.a) :: p.chain) σ) ∨
    ∃ x, child prm p k = .node x ∧ NodeOK prm x ∧ x.id = k ∧
      ∀ σ, InSet x.id x.a x.chain σ ↔ InSet k p.a ((p.id, p.a) :: p.chain) σ := by
  have hlen := length_freeCols hp.bij hkn.le
  have hch := child_chainOK hp hk
  have hfs := forbid_spec (prm := prm) hC hkn hlen hp.bij ((p.id, p.a) :: p.chain)
    (fun r c => prm.C ⟨k + r.val, by omega⟩ ((freeCols p.a k).get (c.cast hlen.symm))) (by simp) hch
  have hm : 0 < n - k := by omega
  have hbig : -prm.big < lo := by
    have h1 : (1 : K) ≤ n := by exact_mod_cast (by omega : 1 ≤ n)
    have h2 : lo ≤ hi := le_trans (hb.ge ⟨k, hkn⟩ ⟨k, hkn⟩) (hb.le _ _)
    have h3 : hi - lo ≤ n * (hi - lo) := le_mul_of_one_le_left (by linarith) h1
    have h4 : (0 : K) ≤ n * tolE := mul_nonneg (by positivity) tolE_pos.le
    have := hb.big
    linarith
  set F := forb ⟨k, hkn⟩ ((p.id, p.a) :: p.chain) with hF
  generalize hM0 : (fun (r : Fin (n - k)) (c : Fin (n - k)) => if r.val = 0 ∧ (freeCols p.a k).get (c.cast hlen.symm) ∈ F
    then -prm.big else prm.C ⟨k + r.val, by omega⟩ ((freeCols p.a k).get (c.cast hlen.symm))) = M at hfs
  have hM : ∀ r c, M r c = if r.val = 0 ∧ (freeCols p.a k).get (c.cast hlen.symm) ∈ F
    then -prm.big else prm.C ⟨k + r.val, by omega⟩ ((freeCols p.a k).get (c.cast hlen.symm)) := by
    intro r c; rw [← hM0]
  unfold child
  simp only
  rw [dif_pos ⟨hlen, hkn⟩]
  simp only [hfs]
  have hne : ∀ c : Fin (n - k), M ⟨0, hm⟩ c ≠ -prm.big ↔ (freeCols p.a k).get (c.cast hlen.symm) ∉ F := by
    intro c
    simp only [hM, true_and]
    by_cases h : (freeCols p.a k).get (c.cast hlen.symm) ∈ F
    · simp only [h, if_true]; simp
    · simp only [h, if_false, not_false_eq_true, iff_true]
      exact ne_of_gt (lt_of_lt_of_le hbig (hb.ge _ _))
  -- a permutation with the fixed rows is in the set iff the reduced one avoids the forbidden columns
  have hset : ∀ τ : Fin (n - k) → Fin (n - k), Function.Bijective τ →
      (InSet k p.a ((p.id, p.a) :: p.chain) (merge p.a hlen τ) ↔
        (freeCols p.a k).get ((τ ⟨0, hm⟩).cast hlen.symm) ∉ F) := by
    intro τ hτ
    have e := merge_add (aP := p.a) (hlen := hlen) (soln := τ) ⟨0, hm⟩
    constructor
    · intro h
      have := h.2.2 hkn
      rw [← e]; exact this
    · intro h
      refine ⟨merge_bij hp.bij hτ, fun i hi => merge_lt hi, fun _ => ?_⟩
      rw [← e] at h; exact h
  by_cases hex : ∃ c : Fin (n - k), M ⟨0, hm⟩ c ≠ -prm.big
  · right
    rw [if_pos hex]
    have hf' : (n - k) * ((n - k) + 1) < prm.fuel :=
      lt_of_le_of_lt (Nat.mul_le_mul (by omega) (by omega)) hf
    obtain ⟨soln, e, hbij, hopt, -⟩ := Hungarian.run_spec M true prm.fuel hf'
    simp only [e]
    simp only [if_true] at hopt
    have hMval : ∀ τ : Fin (n - k) → Fin (n - k), (freeCols p.a k).get ((τ ⟨0, hm⟩).cast hlen.symm) ∉ F →
        ∑ r, M r (τ r) = ∑ r : Fin (n - k), prm.C ⟨k + r.val, by omega⟩ ((freeCols p.a k).get ((τ r).cast hlen.symm)) := by
      intro τ hτ
      refine Finset.sum_congr rfl fun r _ => ?_
      simp only [hM]
      rw [if_neg]
      rintro ⟨h0, h1⟩
      have : r = ⟨0, hm⟩ := Fin.ext h0
      subst this; exact hτ h1
    -- the solver avoids the forbidden columns
    have havoid : (freeCols p.a k).get ((soln ⟨0, hm⟩).cast hlen.symm) ∉ F := by
      intro hbad
      obtain ⟨c, hc⟩ := hex
      rw [hne] at hc
      let τ : Fin (n - k) → Fin (n - k) := Equiv.swap ⟨0, hm⟩ c
      have hτ0 : τ ⟨0, hm⟩ = c := Equiv.swap_apply_left _ _
      have h1 := hopt τ (Equiv.bijective _)
      rw [hMval τ (by rw [hτ0]; exact hc)] at h1
      have h2 : ((n - k : ℕ) : K) * lo ≤
          ∑ r : Fin (n - k), prm.C ⟨k + r.val, by omega⟩ ((freeCols p.a k).get ((τ r).cast hlen.symm)) := by
        have := Finset.card_nsmul_le_sum (Finset.univ : Finset (Fin (n - k)))
          (fun r => prm.C ⟨k + r.val, by omega⟩ ((freeCols p.a k).get ((τ r).cast hlen.symm))) lo
          (fun r _ => hb.ge _ _)
        simpa using this
      have h3 : ∑ r, M r (soln r) ≤ -prm.big + ((n - k : ℕ) - 1 : K) * hi := by
        rw [← Finset.add_sum_erase _ _ (Finset.mem_univ (⟨0, hm⟩ : Fin (n - k)))]
        have e0 : M ⟨0, hm⟩ (soln ⟨0, hm⟩) = -prm.big := by
          by_contra hcon
          exact (hne _).1 hcon hbad
        rw [e0]
        have := Finset.sum_le_card_nsmul ((Finset.univ : Finset (Fin (n - k))).erase ⟨0, hm⟩)
          (fun r => M r (soln r)) hi (fun r hr => by
            have hr0 : r ≠ ⟨0, hm⟩ := Finset.ne_of_mem_erase hr
            simp only [hM]
            rw [if_neg (fun h => hr0 (Fin.ext h.1))]
            exact hb.le _ _)
        rw [Finset.card_erase_of_mem (Finset.mem_univ _)] at this
        simp only [Finset.card_univ, Fintype.card_fin, nsmul_eq_mul] at this
        rw [Nat.cast_sub (by omega), Nat.cast_one] at this
        linarith
      have h4 : ((n - k : ℕ) : K) ≤ n := by exact_mod_cast Nat.sub_le n k
      have h5 : lo ≤ hi := le_trans (hb.ge ⟨k, hkn⟩ ⟨k, hkn⟩) (hb.le _ _)
      have h6 : ((n - k : ℕ) : K) * (hi - lo + tolE) ≤ n * (hi - lo + tolE) :=
        mul_le_mul_of_nonneg_right h4 (by have := tolE_pos (K := K); linarith)
      have h7 := hb.big
      nlinarith
    refine ⟨_, rfl, ?_, rfl, ?_⟩
    · have hagree : ∀ i : Fin n, i.val < k → p.a i = merge p.a hlen soln i := fun i hi => (merge_lt hi).symm
      have hscore : (∑ r : Fin (n - k), prm.C ⟨k + r.val, by omega⟩ (merge p.a hlen soln ⟨k + r.val, by omega⟩)) +
          (∑ i : Fin n, if i.val < k then prm.C i (p.a i) else 0) = total prm.C (merge p.a hlen soln) := by
        rw [total_merge _ hkn.le]
        congr 1
        exact Finset.sum_congr rfl fun r _ => by rw [merge_add]
      have hin := (hset soln hbij).2 havoid
      refine ⟨merge_bij (hlen := hlen) hp.bij hbij, hscore, chainOK_congr hagree hch, (inSet_congr hagree).1 hin, ?_⟩
      intro σ hσ
      have hσ' : InSet k p.a ((p.id, p.a) :: p.chain) σ := (inSet_congr hagree).2 hσ
      obtain ⟨τ, hτ, rfl⟩ := exists_reduced hlen hσ'.1 hσ'.2.1
      have hτF := (hset τ hτ).1 hσ'
      have h1 := hopt τ hτ
      rw [hMval τ hτF, hMval soln havoid] at h1
      show total prm.C (merge p.a hlen τ) ≤ (∑ r : Fin (n - k), prm.C ⟨k + r.val, by omega⟩
        (merge p.a hlen soln ⟨k + r.val, by omega⟩)) + (∑ i : Fin n, if i.val < k then prm.C i (p.a i) else 0) + n * tolE
      rw [hscore, total_merge _ hkn.le, total_merge _ hkn.le]
      have h4 : ((n - k : ℕ) : K) * tolE ≤ n * tolE :=
        mul_le_mul_of_nonneg_right (by exact_mod_cast Nat.sub_le n k) tolE_pos.le
      linarith
    · intro σ
      exact (inSet_congr fun i hi => (merge_lt (hlen := hlen) (soln := soln) hi).symm).symm
  · left
    rw [if_neg hex]
    refine ⟨rfl, fun σ hσ => ?_⟩
    obtain ⟨τ, hτ, rfl⟩ := exists_reduced hlen hσ.1 hσ.2.1
    exact hex ⟨τ ⟨0, hm⟩, (hne _).2 ((hset τ hτ).1 hσ)⟩

open Classical in
theorem countP_unique {α : Type*} {l : List α} (hl : l.Nodup) {P : α → Prop} {a : α} (ha : a ∈ l)
    (h : ∀ b ∈ l, P b ↔ b = a) : l.countP (fun b => decide (P b)) = 1 := by
  have : l.countP (fun b => decide (P b)) = l.count a := by
    rw [List.count_eq_countP]
    refine List.countP_congr fun b hb => ?_
    simp [h b hb]
  rw [this, List.count_eq_one_of_mem hl ha]

theorem agree_all {σ τ : Fin n → Fin n} (hσ : Function.Bijective σ) (hτ : Function.Bijective τ)
    (h : ∀ i : Fin n, i.val < n - 1 → σ i = τ i) : σ = τ := by
  funext i
  by_cases hi : i.val < n - 1
  · exact h i hi
  · obtain ⟨j, hj⟩ := hτ.2 (σ i)
    by_cases hj' : j.val < n - 1
    · have := h j hj'
      rw [hj] at this
      have := hσ.1 this
      rw [this] at hj'; exact absurd hj' hi
    · have : j = i := Fin.ext (by omega)
      rw [this] at hj; exact hj.symm

theorem child_sub {prm : Prm K n} {p : Node K n} (hp : NodeOK prm p) {k : Nat} (hk : p.id ≤ k) (hkn : k < n)
    {σ : Fin n → Fin n} (h : InSet k p.a ((p.id, p.a) :: p.chain) σ) :
    InSet p.id p.a p.chain σ ∧ σ ⟨k, hkn⟩ ≠ p.a ⟨k, hkn⟩ := by
  have h3 := h.2.2 hkn
  simp only [forb, List.mem_cons, not_or] at h3
  refine ⟨⟨h.1, fun i hi => h.2.1 i (by omega), fun hid => ?_⟩, h3.1⟩
  by_cases e : p.id = k
  · subst e
    cases hc : p.chain with
    | nil => simp [forb]
    | cons c cs =>
      have := h3.2
      simpa [hc] using this
  · have : σ ⟨p.id, hid⟩ = p.a ⟨p.id, hid⟩ := h.2.1 _ (by simp only; omega)
    rw [this]
    exact hp.mem.2.2 hid

open Classical in
theorem split_node {prm : Prm K n} {p : Node K n} (hp : NodeOK prm p) (σ : Fin n → Fin n)
    (hσ : Function.Bijective σ) :
    (if InSet p.id p.a p.chain σ then 1 else 0) = (if σ = p.a then 1 else 0) +
      ((List.range (n - 1)).drop p.id).countP (fun k => decide (InSet k p.a ((p.id, p.a) :: p.chain) σ)) := by
  have hmem : ∀ k, k ∈ (List.range (n - 1)).drop p.id ↔ p.id ≤ k ∧ k < n - 1 := by
    intro k
    rw [List.range_eq_range', List.drop_range']
    simp [List.mem_range'_1]; omega
  have hnd : ((List.range (n - 1)).drop p.id).Nodup := (List.nodup_range).sublist (List.drop_sublist _ _)
  by_cases h1 : InSet p.id p.a p.chain σ
  · rw [if_pos h1]
    by_cases h2 : σ = p.a
    · rw [if_pos h2, List.countP_eq_zero.2]
      intro k hk h
      rw [hmem] at hk
      have := (child_sub hp hk.1 (by omega) (of_decide_eq_true h)).2
      exact this (by rw [h2])
    · rw [if_neg h2]
      -- the first row where they differ
      have hex : ∃ k, ∃ hk : k < n, σ ⟨k, hk⟩ ≠ p.a ⟨k, hk⟩ := by
        by_contra hcon
        push Not at hcon
        exact h2 (funext fun i => hcon i.val i.2)
      set k0 := Nat.find hex with hk0
      obtain ⟨hk0n, hne⟩ := Nat.find_spec hex
      have hmin : ∀ i : Fin n, i.val < k0 → σ i = p.a i := by
        intro i hi
        have := Nat.find_min hex hi
        push Not at this
        exact this i.2
      have hge : p.id ≤ k0 := by
        by_contra hlt
        exact hne (h1.2.1 _ (by simp only; omega))
      have hlt : k0 < n - 1 := by
        by_contra hcon
        exact h2 (agree_all hσ hp.bij fun i hi => hmin i (by omega))
      rw [countP_unique hnd ((hmem k0).2 ⟨hge, hlt⟩)]
      intro k hk
      rw [hmem] at hk
      constructor
      · intro h
        have hneq := (child_sub hp hk.1 (by omega) h).2
        rcases Nat.lt_trichotomy k k0 with hl | he | hg
        · exact absurd (hmin ⟨k, by omega⟩ hl) hneq
        · exact he
        · exact absurd (h.2.1 ⟨k0, hk0n⟩ hg) hne
      · rintro rfl
        refine ⟨hσ, hmin, fun hkn => ?_⟩
        simp only [forb, List.mem_cons, not_or]
        refine ⟨hne, ?_⟩
        split
        · rename_i hc
          have e : p.id = Nat.find hex := le_antisymm hge hc.2
          have := h1.2.2 (by omega)
          simp only [e] at this
          exact this
        · simp
  · rw [if_neg h1, if_neg (fun e => h1 (by rw [e]; exact hp.mem)), List.countP_eq_zero.2]
    intro k hk h
    rw [hmem] at hk
    exact h1 (child_sub hp hk.1 (by omega) (of_decide_eq_true h)).1

def InNode (σ : Fin n → Fin n) (x : Node K n) : Prop := InSet x.id x.a x.chain σ

open Classical in
theorem expand_spec {prm : Prm K n} {lo hi : K} (hb : Bounds prm lo hi) (hC : n ≤ prm.nC)
    (hf : n * (n + 1) < prm.fuel) {p : Node K n} (hp : NodeOK prm p) (Q : PQ K n) :
    ∀ (ks : List Nat) (h : Q.H), (∀ k ∈ ks, p.id ≤ k ∧ k < n) →
      ∃ h', expand Q prm p ks h = some h' ∧ ∃ cs : Multiset (Node K n), Q.elems h' = cs + Q.elems h ∧
        (∀ x ∈ cs, NodeOK prm x) ∧
        ∀ σ, cs.countP (InNode σ) = ks.countP (fun k => decide (InSet k p.a ((p.id, p.a) :: p.chain) σ))
  | [], h, _ => ⟨h, rfl, 0, by simp, by simp, by simp⟩
  | k :: ks, h, hks => by
    have hk := hks k (by simp)
    rcases child_spec hb hC hf hp hk.1 hk.2 with ⟨e, hno⟩ | ⟨x, e, hx, -, hin⟩
    · obtain ⟨h', e', cs, h1, h2, h3⟩ := expand_spec hb hC hf hp Q ks h (fun k' hk' => hks k' (by simp [hk']))
      refine ⟨h', ?_, cs, h1, h2, fun σ => ?_⟩
      · simp only [expand, e, e']
      · rw [h3, List.countP_cons_of_neg]
        simpa using hno σ
    · obtain ⟨h', e', cs, h1, h2, h3⟩ := expand_spec hb hC hf hp Q ks (Q.push h x)
        (fun k' hk' => hks k' (by simp [hk']))
      refine ⟨h', ?_, x ::ₘ cs, ?_, ?_, fun σ => ?_⟩
      · simp only [expand, e, e']
      · rw [h1, Q.elems_push]; simp
      · intro y hy
        rcases Multiset.mem_cons.1 hy with rfl | hy
        · exact hx
        · exact h2 y hy
      · rw [Multiset.countP_cons, h3, List.countP_cons]
        congr 1
        have := hin σ
        by_cases hs : InSet k p.a ((p.id, p.a) :: p.chain) σ
        · simp [hs, InNode, this.2 hs]
        · have hs' : ¬ InNode σ x := fun hc => hs (this.1 hc)
          simp [hs, hs']

open Classical in
structure Inv (prm : Prm K n) (E : List (Fin n → Fin n)) (m : Multiset (Node K n)) : Prop where
  ok : ∀ x ∈ m, NodeOK prm x
  cover : ∀ σ, Function.Bijective σ → E.count σ + m.countP (InNode σ) = 1

open Classical in
theorem Inv.mem_E {prm : Prm K n} {E : List (Fin n → Fin n)} {m : Multiset (Node K n)} (h : Inv prm E m)
    {x} (hx : x ∈ m) : x.a ∉ E := by
  intro hE
  have h1 := h.cover x.a (h.ok x hx).bij
  have h2 : 0 < E.count x.a := List.count_pos_iff.2 hE
  have h3 : 0 < m.countP (InNode x.a) := Multiset.countP_pos.2 ⟨x, hx, (h.ok x hx).mem⟩
  omega

open Classical in
theorem Inv.find {prm : Prm K n} {E : List (Fin n → Fin n)} {m : Multiset (Node K n)} (h : Inv prm E m)
    {σ} (hσ : Function.Bijective σ) (hE : σ ∉ E) : ∃ x ∈ m, InNode σ x := by
  have h1 := h.cover σ hσ
  rw [List.count_eq_zero.2 hE] at h1
  exact Multiset.countP_pos.1 (by omega)

theorem call_noMore (Q : PQ K n) (prm : Prm K n) (st : St K n Q) (hk : st.k ≠ 0) (h : Q.pop st.pq = none) (i : Nat) :
    call Q prm st i = .noMore := by
  have e : findNextBest Q prm st = (.noMore, st) := by simp [findNextBest, hk, h]
  induction i with
  | zero => simp [call, e]
  | succ i ih => simp [call, e, ih]

/-- The order of the results: nothing later is better by more than the tolerance. -/
def NoBetter (prm : Prm K n) (σ τ : Fin n → Fin n) : Prop := total prm.C τ ≤ total prm.C σ + n * tolE

open Classical in
theorem run_from {prm : Prm K n} {lo hi : K} (hb : Bounds prm lo hi) (hR : prm.nR = n) (hC : n ≤ prm.nC)
    (hf : n * (n + 1) < prm.fuel) (Q : PQ K n) :
    ∀ (N : Nat) (E : List (Fin n → Fin n)) (st : St K n Q), st.k ≠ 0 → Inv prm E (Q.elems st.pq) →
      (Finset.univ.filter fun σ : Fin n → Fin n => Function.Bijective σ ∧ σ ∉ E).card ≤ N →
      ∃ L : List (Fin n → Fin n), L.Nodup ∧ (∀ σ, σ ∈ L ↔ Function.Bijective σ ∧ σ ∉ E) ∧
        L.Pairwise (NoBetter prm) ∧ (∀ x h', Q.pop st.pq = some (x, h') → L.head? = some x.a) ∧
        ∀ i, call Q prm st i = match L[i + 1]? with
          | some a => .found (st.k + 1 + i) a (total prm.C a)
          | none => .noMore := by
  intro N
  induction N with
  | zero =>
    intro E st hk hinv hcard
    have hall : ∀ σ : Fin n → Fin n, Function.Bijective σ → σ ∈ E := by
      intro σ hσ
      by_contra hE
      have := Finset.card_eq_zero.1 (Nat.le_zero.1 hcard)
      have h2 : σ ∈ (Finset.univ.filter fun σ : Fin n → Fin n => Function.Bijective σ ∧ σ ∉ E) :=
        Finset.mem_filter.2 ⟨Finset.mem_univ _, hσ, hE⟩
      rw [this] at h2; simp at h2
    have hnone : Q.pop st.pq = none := by
      cases e : Q.pop st.pq with
      | none => rfl
      | some xh =>
        exfalso
        have := (Q.pop_some _ xh.1 xh.2 e).1
        have hx : xh.1 ∈ Q.elems st.pq := by rw [this]; simp
        exact hinv.mem_E hx (hall _ (hinv.ok _ hx).bij)
    refine ⟨[], by simp, fun σ => ?_, by simp, ?_, fun i => ?_⟩
    · simp only [List.not_mem_nil, false_iff, not_and, not_not]; exact hall σ
    · intro x h' e; rw [hnone] at e; cases e
    · rw [call_noMore Q prm st hk hnone]; simp
  | succ N ih =>
    intro E st hk hinv hcard
    cases hpop : Q.pop st.pq with
    | none =>
      have h0 := Q.pop_none _ hpop
      refine ⟨[], by simp, fun σ => ?_, by simp, by simp, fun i => ?_⟩
      · simp only [List.not_mem_nil, false_iff, not_and, not_not]
        intro hσ
        by_contra hE
        obtain ⟨x, hx, -⟩ := hinv.find hσ hE
        rw [h0] at hx; simp at hx
      · rw [call_noMore Q prm st hk hpop]; simp
    | some xh =>
      obtain ⟨p, h⟩ := xh
      obtain ⟨hel, hmax⟩ := Q.pop_some _ p h hpop
      have hpm : p ∈ Q.elems st.pq := by rw [hel]; simp
      have hp := hinv.ok p hpm
      have hpE := hinv.mem_E hpm
      have hmem : ∀ k, k ∈ (List.range (n - 1)).drop p.id → p.id ≤ k ∧ k < n := by
        intro k
        rw [List.range_eq_range', List.drop_range']
        simp [List.mem_range'_1]; omega
      obtain ⟨h', hexp, cs, hel', hcs, hcnt⟩ := expand_spec hb hC hf hp Q ((List.range (n - 1)).drop p.id) h hmem
      have hinv' : Inv prm (p.a :: E) (Q.elems h') := by
        constructor
        · intro x hx
          rw [hel', Multiset.mem_add] at hx
          rcases hx with hx | hx
          · exact hcs x hx
          · exact hinv.ok x (by rw [hel]; exact Multiset.mem_cons_of_mem hx)
        · intro σ hσ
          have h1 := hinv.cover σ hσ
          rw [hel, Multiset.countP_cons] at h1
          have h2 := split_node hp σ hσ
          rw [hel', Multiset.countP_add, hcnt, List.count_cons]
          have h3 : (if InNode σ p then 1 else 0) = (if InSet p.id p.a p.chain σ then 1 else 0) := rfl
          have h4 : (if (p.a == σ) = true then 1 else 0) = (if σ = p.a then 1 else 0) := by
            simp only [beq_iff_eq]
            by_cases e : σ = p.a
            · simp [e]
            · rw [if_neg e, if_neg (fun e' => e e'.symm)]
          rw [h3] at h1
          rw [h4]
          omega
      have hcard' : (Finset.univ.filter fun σ : Fin n → Fin n => Function.Bijective σ ∧ σ ∉ p.a :: E).card ≤ N := by
        have hlt : (Finset.univ.filter fun σ : Fin n → Fin n => Function.Bijective σ ∧ σ ∉ p.a :: E).card <
            (Finset.univ.filter fun σ : Fin n → Fin n => Function.Bijective σ ∧ σ ∉ E).card := by
          apply Finset.card_lt_card
          rw [Finset.ssubset_iff_of_subset]
          · exact ⟨p.a, Finset.mem_filter.2 ⟨Finset.mem_univ _, hp.bij, hpE⟩, by simp⟩
          · intro σ
            simp only [Finset.mem_filter, Finset.mem_univ, true_and, List.mem_cons, not_or]
            rintro ⟨a, -, b⟩; exact ⟨a, b⟩
        omega
      have hpm' : partitionMax prm = n - 1 := by simp [partitionMax, hR]
      -- the list for a state with the new queue
      have build : ∀ st' : St K n Q, st'.k ≠ 0 → st'.pq = h' →
          (findNextBest Q prm st).2 = st' → (∀ x h'', Q.pop h' = some (x, h'') →
            st'.k = st.k + 1 ∧ (findNextBest Q prm st).1 = .found (st.k + 1) x.a x.s) →
          (Q.pop h' = none → (findNextBest Q prm st).1 = .noMore) →
          ∃ L : List (Fin n → Fin n), L.Nodup ∧ (∀ σ, σ ∈ L ↔ Function.Bijective σ ∧ σ ∉ E) ∧
            L.Pairwise (NoBetter prm) ∧ (∀ x h', some (p, h) = some (x, h') → L.head? = some x.a) ∧
            ∀ i, call Q prm st i = match L[i + 1]? with
              | some a => .found (st.k + 1 + i) a (total prm.C a)
              | none => .noMore := by
        intro st' hk' hq hst hs hn
        obtain ⟨L, l1, l2, l3, l4, l5⟩ := ih (p.a :: E) st' hk' (by rw [hq]; exact hinv') hcard'
        refine ⟨p.a :: L, ?_, ?_, ?_, ?_, ?_⟩
        · refine List.nodup_cons.2 ⟨fun hm => ?_, l1⟩
          have := ((l2 _).1 hm).2
          simp at this
        · intro σ
          rw [List.mem_cons, l2]
          simp only [List.mem_cons, not_or]
          constructor
          · rintro (rfl | ⟨a, -, b⟩)
            · exact ⟨hp.bij, hpE⟩
            · exact ⟨a, b⟩
          · rintro ⟨a, b⟩
            by_cases e : σ = p.a
            · exact Or.inl e
            · exact Or.inr ⟨a, e, b⟩
        · refine List.pairwise_cons.2 ⟨fun σ hm => ?_, l3⟩
          have hσ := (l2 _).1 hm
          obtain ⟨y, hy, hin⟩ := hinv.find hσ.1 (fun hc => hσ.2 (List.mem_cons_of_mem _ hc))
          have h1 := (hinv.ok y hy).opt σ hin
          have h2 := hmax y hy
          have h3 := hp.score
          unfold NoBetter
          linarith
        · intro x h'' e
          simp only [Option.some.injEq, Prod.mk.injEq] at e
          simp [e.1]
        · intro i
          cases hpop' : Q.pop h' with
          | none =>
            have hnil : L = [] := by
              rw [List.eq_nil_iff_forall_not_mem]
              intro σ hm
              have hσ := (l2 _).1 hm
              obtain ⟨x, hx, -⟩ := hinv'.find hσ.1 hσ.2
              rw [Q.pop_none _ hpop'] at hx; simp at hx
            subst hnil
            simp only [List.getElem?_cons_succ, List.getElem?_nil]
            cases i with
            | zero => simp only [call]; exact hn hpop'
            | succ i =>
              simp only [call, hst]
              exact call_noMore Q prm st' hk' (by rw [hq]; exact hpop') i
          | some yh =>
            obtain ⟨hkk, hret⟩ := hs yh.1 yh.2 hpop'
            have hhead := l4 yh.1 yh.2 (by rw [hq]; exact hpop')
            cases i with
            | zero =>
              simp only [call, hret]
              have : (p.a :: L)[0 + 1]? = some yh.1.a := by
                rw [List.getElem?_cons_succ, ← List.head?_eq_getElem?]; exact hhead
              simp only [this]
              have hy : yh.1 ∈ Q.elems h' := by rw [(Q.pop_some _ yh.1 yh.2 hpop').1]; simp
              rw [(hinv'.ok _ hy).score, Nat.add_zero]
            | succ i =>
              simp only [call, hst, l5 i, hkk]
              have : (p.a :: L)[i + 1 + 1]? = L[i + 1]? := by rw [List.getElem?_cons_succ]
              rw [this, show st.k + 1 + 1 + i = st.k + 1 + (i + 1) by omega]
      have hfn : findNextBest Q prm st = (match Q.pop h' with
        | none => (.noMore, { st with pq := h' })
        | some (x, _) => (.found (st.k + 1) x.a x.s, { st with k := st.k + 1, pq := h' })) := by
        unfold findNextBest
        rw [if_neg hk, hpop]
        simp only [hpm', hexp]
        cases Q.pop h' <;> rfl
      cases hpop' : Q.pop h' with
      | none =>
        rw [hpop'] at hfn
        exact build { st with pq := h' } hk rfl (by rw [hfn]) (by intro x h'' e; rw [hpop'] at e; cases e)
          (fun _ => by rw [hfn])
      | some yh =>
        rw [hpop'] at hfn
        refine build { st with k := st.k + 1, pq := h' } (by simp) rfl (by rw [hfn]) ?_ ?_
        · intro x h'' e
          rw [hpop'] at e
          cases e
          exact ⟨rfl, by rw [hfn]⟩
        · intro e; rw [hpop'] at e; cases e

open Classical in
/-- The full behaviour without a real-assignment block. -/
theorem run_all {prm : Prm K n} {lo hi : K} (hb : Bounds prm lo hi) (hR : prm.nR = n) (hC : n ≤ prm.nC)
    (hf : n * (n + 1) < prm.fuel) (Q : PQ K n) :
    ∃ L : List (Fin n → Fin n), L.Nodup ∧ (∀ σ, σ ∈ L ↔ Function.Bijective σ) ∧ L.Pairwise (NoBetter prm) ∧
      ∀ i, call Q prm (start Q) i = match L[i]? with
        | some a => .found (i + 1) a (total prm.C a)
        | none => .noMore := by
  obtain ⟨soln, e, hbij, hopt, -⟩ := Hungarian.run_spec prm.C true prm.fuel hf
  simp only [if_true] at hopt
  let root : Node K n := ⟨0, soln, ∑ x, prm.C x (soln x), []⟩
  have hroot : NodeOK prm root := by
    refine ⟨hbij, rfl, trivial, ⟨hbij, fun _ _ => rfl, fun _ => by simp [forb, root]⟩, ?_⟩
    intro σ hσ
    exact hopt σ hσ.1
  let st1 : St K n Q := ⟨1, Q.push Q.empty root, ∑ x, prm.C x (soln x)⟩
  have hel : Q.elems st1.pq = {root} := by
    simp only [st1, Q.elems_push, Q.elems_empty]; rfl
  have hinv : Inv prm [] (Q.elems st1.pq) := by
    rw [hel]
    constructor
    · intro x hx; rw [Multiset.mem_singleton.1 hx]; exact hroot
    · intro σ hσ
      have : InNode σ root := ⟨hσ, by simp [root], fun _ => by simp [forb, root]⟩
      have h2 : ({root} : Multiset (Node K n)) = root ::ₘ 0 := rfl
      rw [h2, Multiset.countP_cons]
      simp [this]
  obtain ⟨L, l1, l2, l3, l4, l5⟩ := run_from hb hR hC hf Q _ [] st1 (by simp [st1]) hinv le_rfl
  have hfn : findNextBest Q prm (start Q) = (.found 1 soln (∑ x, prm.C x (soln x)), st1) := by
    unfold findNextBest
    rw [if_pos (show (start Q).k = 0 from rfl), e]; rfl
  refine ⟨L, l1, fun σ => by simp [l2], l3, fun i => ?_⟩
  cases i with
  | zero =>
    have hhead : L.head? = some soln := by
      cases hpop : Q.pop st1.pq with
      | none =>
        have := Q.pop_none _ hpop
        rw [hel] at this; simp at this
      | some xh =>
        have h1 := (Q.pop_some _ xh.1 xh.2 hpop).1
        have h2 : xh.1 ∈ Q.elems st1.pq := by rw [h1]; simp
        rw [hel] at h2
        rw [l4 xh.1 xh.2 hpop, Multiset.mem_singleton.1 h2]
    rw [← List.head?_eq_getElem?, hhead]
    simp only [call, hfn]; rfl
  | succ i =>
    simp only [call, hfn, l5 i]
    rw [show st1.k + 1 + i = i + 1 + 1 by simp [st1]; omega]

end Murty
end RFS
